import Mathlib.Analysis.SpecificLimits.Basic
import Mathlib.Data.Nat.Choose.Basic
import Mathlib.Tactic.Ring
import Mathlib.Tactic.LinearCombination
import Mathlib.Tactic.FieldSimp
/-
Probabilities of what a program does with a sequence of independent random draws: finite sums over the sequences. Nothing here models code of `abcpy`.
-/
namespace Verif.Chance

variable {A : Type}

/-! ### Random trials -/

/-- All sequences of `n` outcomes. -/
def sequences (outcomes : List A) : Nat → List (List A)
  | 0 => [[]]
  | n + 1 => outcomes.flatMap fun a => (sequences outcomes n).map (a :: ·)

/-- The probability of an event about `n` independent draws with probabilities `q`: the sum of the products over the sequences for which it happens. -/
noncomputable def prob (outcomes : List A) (q : A → ℝ) (n : Nat) (event : List A → Bool) : ℝ :=
  ((sequences outcomes n).map fun l => if event l then (l.map q).prod else 0).sum

/-- A source of randomness that hands out the elements of a list. -/
def next : List A → Option (List A × A)
  | [] => none
  | a :: l => some (l, a)

theorem prob_zero (outcomes : List A) (q : A → ℝ) (event : List A → Bool) : prob outcomes q 0 event = if event [] then 1 else 0 := by
  simp [prob, sequences]

theorem sum_flatMap {B : Type} (l : List B) (f : B → List ℝ) : (l.flatMap f).sum = (l.map fun b => (f b).sum).sum := by
  induction l with
  | nil => rfl
  | cons b l ih => simp [ih]

theorem map_mul_sum {B : Type} (l : List B) (f : B → ℝ) (z : ℝ) : (l.map fun b => z * f b).sum = z * (l.map f).sum := by
  induction l with
  | nil => simp
  | cons b l ih => simp [ih, mul_add]

theorem prob_succ (outcomes : List A) (q : A → ℝ) (n : Nat) (event : List A → Bool) :
    prob outcomes q (n + 1) event = (outcomes.map fun a => q a * prob outcomes q n fun l => event (a :: l)).sum := by
  unfold prob
  rw [sequences, List.map_flatMap, sum_flatMap]
  congr 1
  apply List.map_congr_left
  intro a _
  rw [List.map_map, ← map_mul_sum]
  congr 1
  apply List.map_congr_left
  intro l _
  simp only [Function.comp, List.map_cons, List.prod_cons]
  split <;> simp

theorem prob_congr (outcomes : List A) (q : A → ℝ) (n : Nat) (e e' : List A → Bool) (h : ∀ l, l.length = n → e l = e' l) :
    prob outcomes q n e = prob outcomes q n e' := by
  induction n generalizing e e' with
  | zero => rw [prob_zero, prob_zero, h [] rfl]
  | succ n ih =>
    rw [prob_succ, prob_succ]
    congr 1
    apply List.map_congr_left
    intro a _
    rw [ih _ _ fun l hl => h (a :: l) (by simp [hl])]

theorem prob_false (outcomes : List A) (q : A → ℝ) (n : Nat) : prob outcomes q n (fun _ => false) = 0 := by
  unfold prob; simp

/-- The probability that hit number `r` is that of trial number `n`, when every trial is a hit with probability `h`. -/
def waiting (h : ℝ) : Nat → Nat → ℝ
  | 0, 0 => 1
  | 0, _ + 1 => 0
  | _ + 1, 0 => 0
  | r + 1, n + 1 => h * waiting h r n + (1 - h) * waiting h (r + 1) n

/-- The number of trials has the negative binomial distribution. -/
theorem waiting_eq (h : ℝ) (r n : Nat) : waiting h (r + 1) (n + 1) = if n < r then 0 else (Nat.choose n r : ℝ) * h ^ (r + 1) * (1 - h) ^ (n - r) := by
  induction n generalizing r with
  | zero =>
    cases r with
    | zero => simp [waiting]
    | succ r => simp [waiting]
  | succ n ih =>
    rw [waiting, ih]
    cases r with
    | zero => simp [waiting]; ring
    | succ r =>
      rw [ih]
      rcases lt_trichotomy n r with hlt | rfl | hgt
      · rw [if_pos hlt, if_pos (by omega), if_pos (by omega)]; ring
      · rw [if_neg (by omega), if_pos (by omega), if_neg (by omega)]
        simp; ring
      · rw [if_neg (by omega), if_neg (by omega), if_neg (by omega), Nat.choose_succ_succ]
        push_cast
        rw [show n - r = (n - (r + 1)) + 1 by omega]
        ring

/-- The identity behind the r-hit kernels: `m` more trials for hit `r + 1` are `m` times as likely, in relation to hit `r`. -/
theorem waiting_step (h : ℝ) (r m : Nat) : (r + 1 : ℝ) * waiting h (r + 2) (m + 2) = (m + 1) * h * waiting h (r + 1) (m + 1) * (if m < r then 0 else 1) := by
  rw [waiting_eq, waiting_eq]
  by_cases hm : m < r
  · rw [if_pos (by omega), if_pos hm]; ring
  · rw [if_neg (by omega), if_neg hm, if_neg hm, show m + 1 - (r + 1) = m - r by omega]
    have : ((r + 1 : Nat) : ℝ) * (Nat.choose (m + 1) (r + 1)) = (m + 1 : Nat) * Nat.choose m r := by
      exact_mod_cast (by rw [mul_comm, ← Nat.add_one_mul_choose_eq])
    push_cast at this
    linear_combination (h ^ (r + 2) * (1 - h) ^ (m - r)) * this

end Verif.Chance
