import Verif.Nan.Num
import Verif.Pmc.Percentile
import Verif.Collect
/-
`np.percentile` with distances that may be NaN.
-/
namespace Verif.Nan

/-- The real number, for numbers that are not infinite and not NaN. -/
def Num.real? : Num → Option ℝ
  | .num x => some x
  | _ => none

/-- `np.percentile(l, q)`: as for real numbers if all entries are real numbers. Otherwise NaN: if an entry is NaN numpy returns NaN; infinite entries are in the lists below only if all entries are infinite, and
then numpy interpolates between two infinite numbers, with their difference, which is NaN (numpy 1.20 and later). `none`: an exception, for `q` outside of [0, 100] and for empty lists. -/
noncomputable def percentile (l : List Num) (q : ℝ) : Option Num :=
  match collect (l.map Num.real?) with
  | some xs => (Pmc.percentile xs q).map .num
  | none => if q < 0 ∨ 100 < q then none else some .nan

theorem collect_num (l : List ℝ) : collect ((l.map Num.num).map Num.real?) = some l := by
  induction l with
  | nil => rfl
  | cons x l ih => simp only [List.map_cons, Num.real?, collect, ih]

theorem collect_none (l : List Num) (d : Num) (hd : d ∈ l) (h : d.real? = none) : collect (l.map Num.real?) = none := by
  induction l with
  | nil => simp at hd
  | cons e l ih =>
    rcases List.mem_cons.1 hd with rfl | hd
    · rw [List.map_cons, h]; rfl
    · rw [List.map_cons]
      cases e.real? with
      | none => rfl
      | some x => simp only [collect, ih hd]

theorem percentile_num (l : List ℝ) (q : ℝ) : percentile (l.map .num) q = (Pmc.percentile l q).map .num := by
  unfold percentile
  rw [collect_num]

theorem percentile_nan (l : List Num) (q : ℝ) (h : .nan ∈ l) : percentile l q = none ∨ percentile l q = some .nan := by
  unfold percentile
  rw [collect_none l .nan h rfl]
  simp only
  split <;> simp

theorem percentile_inf (l : List Num) (q : ℝ) (h : .inf ∈ l) : percentile l q = none ∨ percentile l q = some .nan := by
  unfold percentile
  rw [collect_none l .inf h rfl]
  simp only
  split <;> simp

/-- A list of three distances with a NaN. -/
example : percentile [.num 1, .nan, .num 2] 50 = some .nan := by
  unfold percentile
  rw [collect_none _ .nan (by simp) rfl]
  simp only
  rw [if_neg (by norm_num)]

end Verif.Nan
