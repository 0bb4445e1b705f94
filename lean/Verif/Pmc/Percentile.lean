import Mathlib.Data.List.Sort
import Mathlib.Algebra.Order.Archimedean.Real.Basic
import Mathlib.Algebra.Order.Floor.Semiring
import Mathlib.Tactic.Linarith
import Mathlib.Tactic.Ring
import Mathlib.Tactic.NormNum
import Mathlib.Tactic.Positivity
/-
`numpy.percentile` on real numbers, with the default linear interpolation.
-/
namespace Verif.Pmc

/-- `np.percentile(l, q)`; `none` is an exception: `q` outside of [0, 100] or an empty array. -/
noncomputable def percentile (l : List ℝ) (q : ℝ) : Option ℝ :=
  if q < 0 ∨ 100 < q then none
  else
    let s := l.insertionSort (· ≤ ·)
    let v := ((l.length : ℝ) - 1) * (q / 100)
    let k := ⌊v⌋₊
    match s[k]?, s[k + 1]? with
    | none, _ => none
    | some a, none => some a
    | some a, some b => some (a + (v - k) * (b - a))

theorem percentile_between (l : List ℝ) (q : ℝ) (hl : l ≠ []) (h0 : 0 ≤ q) (h1 : q ≤ 100) :
    ∃ x, percentile l q = some x ∧ ∀ lo hi : ℝ, (∀ y ∈ l, lo ≤ y ∧ y ≤ hi) → lo ≤ x ∧ x ≤ hi := by
  unfold percentile
  rw [if_neg (by rw [not_or]; exact ⟨not_lt.2 h0, not_lt.2 h1⟩)]
  simp only
  have hlen : (l.insertionSort (· ≤ ·)).length = l.length := List.length_insertionSort _ _
  have hpos : 1 ≤ l.length := List.length_pos_iff.2 hl
  have hposR : (1 : ℝ) ≤ l.length := by exact_mod_cast hpos
  have hv0 : 0 ≤ ((l.length : ℝ) - 1) * (q / 100) := mul_nonneg (by linarith) (by linarith)
  have hv1 : ((l.length : ℝ) - 1) * (q / 100) ≤ (l.length : ℝ) - 1 := by
    have : q / 100 ≤ 1 := by linarith
    nlinarith
  generalize ((l.length : ℝ) - 1) * (q / 100) = v at hv0 hv1
  have hfl := Nat.floor_le hv0
  have hfl2 := Nat.lt_floor_add_one v
  have hk : ⌊v⌋₊ < l.length := by
    have : (⌊v⌋₊ : ℝ) < l.length := by linarith
    exact_mod_cast this
  have hmem : ∀ i y, (l.insertionSort (· ≤ ·))[i]? = some y → y ∈ l := fun i y h =>
    (List.mem_insertionSort (· ≤ ·)).1 (List.mem_of_getElem? h)
  rw [List.getElem?_eq_getElem (by rw [hlen]; exact hk)]
  have ha := hmem _ _ (List.getElem?_eq_getElem (l := l.insertionSort (· ≤ ·)) (i := ⌊v⌋₊) (by rw [hlen]; exact hk))
  generalize (l.insertionSort (· ≤ ·))[⌊v⌋₊]'(by rw [hlen]; exact hk) = a at ha
  cases hb : (l.insertionSort (· ≤ ·))[⌊v⌋₊ + 1]? with
  | none => exact ⟨a, rfl, fun lo hi h => h a ha⟩
  | some b =>
    have hb := hmem _ _ hb
    refine ⟨_, rfl, fun lo hi h => ?_⟩
    obtain ⟨a1, a2⟩ := h a ha
    obtain ⟨b1, b2⟩ := h b hb
    have g0 : 0 ≤ v - ⌊v⌋₊ := by linarith
    have g1 : v - ⌊v⌋₊ ≤ 1 := by linarith
    constructor
    · nlinarith [mul_le_mul_of_nonneg_left b1 g0, mul_le_mul_of_nonneg_left a1 (sub_nonneg.2 g1)]
    · nlinarith [mul_le_mul_of_nonneg_left b2 g0, mul_le_mul_of_nonneg_left a2 (sub_nonneg.2 g1)]

end Verif.Pmc
