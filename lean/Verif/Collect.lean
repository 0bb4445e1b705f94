import Mathlib.Data.List.Basic
/-
Loops whose body may raise an exception.
-/
namespace Verif

/-- The results of a loop: `none` (an exception) if one of the steps raised it, else the list of all results. -/
def collect {β : Type} : List (Option β) → Option (List β)
  | [] => some []
  | none :: _ => none
  | some x :: l => match collect l with
    | none => none
    | some r => some (x :: r)

theorem collect_map_some {β : Type} (l : List β) : collect (l.map some) = some l := by
  induction l with
  | nil => rfl
  | cons x l ih => simp [collect, ih]

theorem collect_eq_some {β : Type} (l : List (Option β)) (out : List β) : collect l = some out ↔ l = out.map some := by
  constructor
  · intro h
    induction l generalizing out with
    | nil => simp [collect] at h; simp [← h]
    | cons x l ih =>
      cases x with
      | none => simp [collect] at h
      | some x =>
        rw [collect] at h
        cases hc : collect l with
        | none => rw [hc] at h; simp at h
        | some r =>
          rw [hc] at h
          simp only [Option.some.injEq] at h
          subst h
          simp [ih r hc]
  · rintro rfl; exact collect_map_some out

theorem collect_isSome {β : Type} (l : List (Option β)) (h : ∀ x ∈ l, x ≠ none) : ∃ out, collect l = some out ∧ l = out.map some := by
  induction l with
  | nil => exact ⟨[], rfl, rfl⟩
  | cons x l ih =>
    obtain ⟨out, h1, h2⟩ := ih fun y hy => h y (by simp [hy])
    cases x with
    | none => exact absurd rfl (h none (by simp))
    | some x => exact ⟨x :: out, by simp [collect, h1], by simp [h2]⟩

theorem collect_eq_none {β : Type} (l : List (Option β)) : collect l = none ↔ none ∈ l := by
  induction l with
  | nil => simp [collect]
  | cons x l ih =>
    cases x with
    | none => simp [collect]
    | some x =>
      rw [collect]
      cases hc : collect l with
      | none => simp [ih.1 hc]
      | some r => simp; intro h; rw [ih.2 h] at hc; simp at hc

end Verif
