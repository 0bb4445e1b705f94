import Verif.Transform.Model
import Mathlib.Tactic.FieldSimp
import Mathlib.Tactic.Linarith
import Mathlib.Tactic.Ring
/-
What it means to lie inside the bounds, and facts about one coordinate.
-/
namespace Verif.Transform

/-- Strictly between the bounds that are given. -/
def Inside (b : Bound) (v : ℝ) : Prop := (∀ l, b.1 = some l → l < v) ∧ (∀ u, b.2 = some u → v < u)

/-- Bounds that make sense, are not upper bounds only, and are single precision numbers. -/
structure Proper (f32 : ℝ → ℝ) (b : Bound) : Prop where
  lowerFirst : b.1 = none → b.2 = none
  exactLower : ∀ l, b.1 = some l → f32 l = l
  exactUpper : ∀ u, b.2 = some u → f32 u = u
  order : ∀ l u, b.1 = some l → b.2 = some u → l < u

theorem refused_iff {f32 : ℝ → ℝ} {b : Bound} (hb : Proper f32 b) (v : ℝ) : refused f32 b v = true ↔ ¬ Inside b v := by
  obtain ⟨h0, h1, h2, h3⟩ := hb
  obtain ⟨l, u⟩ := b
  cases l with
  | none =>
    have := h0 rfl
    simp only at this
    subst this
    simp [refused, Inside]
  | some l =>
    have e1 := h1 l rfl
    cases u with
    | none => simp [refused, Inside, e1]
    | some u =>
      have e2 := h2 u rfl
      simp only [refused, Inside, e2, Bool.or_eq_true, decide_eq_true_eq, Option.some.injEq, forall_eq', not_and_or, not_lt, ge_iff_le]

/-- A point inside is transformed to a number which is transformed back to it. -/
theorem fwd_inside {f32 : ℝ → ℝ} {b : Bound} (hb : Proper f32 b) {v : ℝ} (hv : Inside b v) : ∃ y, fwd f32 b v = some y ∧ bwd f32 b y = v := by
  obtain ⟨h0, h1, h2, h3⟩ := hb
  obtain ⟨l, u⟩ := b
  cases l with
  | none => exact ⟨v, rfl, rfl⟩
  | some l =>
    have e1 := h1 l rfl
    have lv : l < v := hv.1 l rfl
    cases u with
    | none =>
      refine ⟨Real.log (v - l), ?_, ?_⟩
      · simp only [fwd, e1]; rw [if_pos (by linarith)]
      · simp only [bwd, e1]; rw [Real.exp_log (by linarith)]; ring
    | some u =>
      have e2 := h2 u rfl
      have vu : v < u := hv.2 u rfl
      have p1 : 0 < v - l := by linarith
      have p2 : 0 < u - v := by linarith
      have p3 : 0 < u - l := by linarith
      have q1 : 0 < (v - l) / (u - l) := div_pos p1 p3
      have q2 : 1 - (v - l) / (u - l) = (u - v) / (u - l) := by field_simp; ring
      have q3 : 0 < (u - v) / (u - l) := div_pos p2 p3
      refine ⟨logit ((v - l) / (u - l)), ?_, ?_⟩
      · simp only [fwd, e1, e2]; rw [if_pos ⟨p3.ne', q1, by rw [q2]; exact q3⟩]
      · simp only [bwd, e1, e2, logit]
        rw [q2, Real.exp_sub, Real.exp_log q1, Real.exp_log q3]
        have : (v - l) / (u - l) / ((u - v) / (u - l)) = (v - l) / (u - v) := by field_simp
        rw [this]
        have : 1 + (v - l) / (u - v) = (u - l) / (u - v) := by field_simp; ring
        rw [this]
        field_simp
        ring

/-- Going back always gives a point inside, and its transform is what we started from. -/
theorem bwd_inside {f32 : ℝ → ℝ} {b : Bound} (hb : Proper f32 b) (y : ℝ) : Inside b (bwd f32 b y) ∧ fwd f32 b (bwd f32 b y) = some y := by
  obtain ⟨h0, h1, h2, h3⟩ := hb
  obtain ⟨l, u⟩ := b
  have ey := Real.exp_pos y
  cases l with
  | none =>
    have := h0 rfl
    simp only at this
    subst this
    exact ⟨⟨by simp, by simp⟩, rfl⟩
  | some l =>
    have e1 := h1 l rfl
    cases u with
    | none =>
      simp only [bwd, fwd, e1, Inside, Option.some.injEq, forall_eq', add_sub_cancel_right, if_pos ey, Real.log_exp]
      exact ⟨⟨by linarith, by simp⟩, trivial⟩
    | some u =>
      have e2 := h2 u rfl
      have lu := h3 l u rfl rfl
      have p3 : 0 < u - l := by linarith
      have p4 : 0 < 1 + Real.exp y := by linarith
      have a1 : 0 < (u - l) * Real.exp y / (1 + Real.exp y) := by positivity
      have a2 : (u - l) * Real.exp y / (1 + Real.exp y) < u - l := by
        rw [div_lt_iff₀ p4]; nlinarith
      have a3 : ((u - l) * Real.exp y / (1 + Real.exp y) + l - l) / (u - l) = Real.exp y / (1 + Real.exp y) := by field_simp; ring
      have a4 : 1 - Real.exp y / (1 + Real.exp y) = 1 / (1 + Real.exp y) := by field_simp; ring
      simp only [bwd, fwd, e1, e2, Inside, Option.some.injEq, forall_eq', a3]
      refine ⟨⟨by linarith, by linarith⟩, ?_⟩
      rw [if_pos ⟨p3.ne', by positivity, by rw [a4]; positivity⟩, logit, a4, Real.log_div ey.ne' p4.ne', Real.log_exp, one_div, Real.log_inv]
      congr 1; ring

/-- In an array of floats numbers are stored as they are. -/
theorem store_real (r : ℝ) : store false r = .real r := by simp [store]

end Verif.Transform
