import Mathlib.Data.Real.Basic
/-
Numbers of floating-point arithmetic with infinities and NaN. Finite numbers are real numbers. Used for C192 to C194, where the other parts of the model leave these out.
-/
namespace Verif.Nan

/-- A number of Python: a real number, an infinity, or NaN. -/
inductive Num
  | num (x : ℝ)
  | inf
  | negInf
  | nan

/-- `a < b` of Python: false if one of them is NaN. -/
def Num.lt : Num → Num → Prop
  | .nan, _ => False
  | _, .nan => False
  | .num x, .num y => x < y
  | .num _, .inf => True
  | .negInf, .num _ => True
  | .negInf, .inf => True
  | _, _ => False

/-- `a > b` of Python. -/
def Num.gt (a b : Num) : Prop := b.lt a

/-- `a <= b` of Python. -/
def Num.le (a b : Num) : Prop := a.lt b ∨ (a = b ∧ a ≠ .nan)

theorem lt_num (x y : ℝ) : (Num.num x).lt (.num y) ↔ x < y := Iff.rfl

theorem le_num (x y : ℝ) : (Num.num x).le (.num y) ↔ x ≤ y := by
  unfold Num.le
  rw [lt_num, le_iff_lt_or_eq]
  simp

/-- What is left if one number is not greater than the other: it is at most the other, or one of them is NaN. -/
theorem not_gt (a b : Num) : ¬ a.gt b ↔ a.le b ∨ a = .nan ∨ b = .nan := by
  cases a <;> cases b <;> simp [Num.gt, Num.le, Num.lt, le_iff_lt_or_eq]

end Verif.Nan
