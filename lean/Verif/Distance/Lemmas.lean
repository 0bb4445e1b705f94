import Verif.Distance.Model
import Verif.Distance.Psd
import Mathlib.Data.Fintype.BigOperators
import Mathlib.Tactic.Linarith
import Mathlib.Tactic.FieldSimp

/-! Helper lemmas: lists of rows as finite families of points. -/

namespace Verif.Distance

open Classical

/-- A row of length `d` as a point of the Euclidean space. -/
noncomputable def pt (d : Nat) (a : Row) : EuclideanSpace ℝ (Fin d) := WithLp.toLp 2 fun i => a.getD i 0

theorem zipWith_sum (f : ℝ → ℝ → ℝ) (d : Nat) (a b : Row) (ha : a.length = d) (hb : b.length = d) :
    (List.zipWith f a b).sum = ∑ i : Fin d, f (a.getD i 0) (b.getD i 0) := by
  induction d generalizing a b with
  | zero => simp [List.eq_nil_of_length_eq_zero ha]
  | succ d ih =>
    obtain ⟨x, a, rfl⟩ := List.exists_cons_of_length_eq_add_one ha
    obtain ⟨y, b, rfl⟩ := List.exists_cons_of_length_eq_add_one hb
    simp only [List.length_cons, Nat.add_right_cancel_iff] at ha hb
    rw [Fin.sum_univ_succ, List.zipWith_cons_cons, List.sum_cons, ih a b ha hb]
    simp

theorem euclid_eq_dist (d : Nat) (a b : Row) (ha : a.length = d) (hb : b.length = d) :
    euclid a b = dist (pt d a) (pt d b) := by
  rw [euclid, zipWith_sum _ d a b ha hb, EuclideanSpace.dist_eq]
  congr 1
  refine Finset.sum_congr rfl fun i _ => ?_
  rw [Real.dist_eq, sq_abs]; rfl

theorem pt_inj (d : Nat) (a b : Row) (ha : a.length = d) (hb : b.length = d) (h : pt d a = pt d b) : a = b := by
  apply List.ext_getElem (by rw [ha, hb])
  intro i h1 h2
  have hi : i < d := ha ▸ h1
  have := congrArg (fun p : EuclideanSpace ℝ (Fin d) => p ⟨i, hi⟩) h
  simp only [pt] at this
  rwa [List.getD_eq_getElem?_getD, List.getD_eq_getElem?_getD, List.getElem?_eq_getElem h1,
    List.getElem?_eq_getElem h2] at this

theorem gaussian_eq (sigma : ℝ) (d : Nat) (a b : Row) (ha : a.length = d) (hb : b.length = d) :
    gaussian sigma a b = Real.exp (-(1 / (2 * sigma ^ 2) * dist (pt d a) (pt d b) ^ 2)) := by
  rw [gaussian, zipWith_sum _ d a b ha hb, EuclideanSpace.dist_eq, Real.sq_sqrt (Finset.sum_nonneg fun _ _ => sq_nonneg _)]
  congr 1
  rw [neg_div, div_eq_mul_one_div, mul_comm]
  congr 2
  refine Finset.sum_congr rfl fun i _ => ?_
  rw [Real.dist_eq, sq_abs, pow_two]; rfl

theorem euclid_nonneg (a b : Row) : 0 ≤ euclid a b := Real.sqrt_nonneg _

theorem zipWith_comm_sq (a b : Row) :
    List.zipWith (fun x y => (x - y) ^ 2) a b = List.zipWith (fun x y : ℝ => (x - y) ^ 2) b a := by
  induction a generalizing b with
  | nil => simp
  | cons x a ih =>
    cases b with
    | nil => simp
    | cons y b => simp only [List.zipWith_cons_cons, ih b]; congr 1; ring

theorem euclid_comm (a b : Row) : euclid a b = euclid b a := by
  rw [euclid, zipWith_comm_sq]; rfl

theorem gaussian_comm (sigma : ℝ) (a b : Row) : gaussian sigma a b = gaussian sigma b a := by
  have : ∀ a b : Row, List.zipWith (fun x y => (x - y) * (x - y)) a b
      = List.zipWith (fun x y : ℝ => (x - y) * (x - y)) b a := by
    intro a
    induction a with
    | nil => simp
    | cons x a ih =>
      intro b
      cases b with
      | nil => simp
      | cons y b => simp only [List.zipWith_cons_cons, ih b]; congr 1; ring
  rw [gaussian, this]; rfl

theorem euclid_eq_zero (d : Nat) (a b : Row) (ha : a.length = d) (hb : b.length = d) :
    euclid a b = 0 ↔ a = b := by
  rw [euclid_eq_dist d a b ha hb, dist_eq_zero]
  exact ⟨pt_inj d a b ha hb, fun h => h ▸ rfl⟩

/-! Totals of matrices. -/

theorem total_fin (k : Row → Row → ℝ) (s t : List Row) :
    total (s.map fun a => t.map fun b => k a b) = ∑ i : Fin s.length, ∑ j : Fin t.length, k s[i.1] t[j.1] := by
  rw [total, List.map_map, ← Fin.sum_univ_fun_getElem]
  refine Finset.sum_congr rfl fun i _ => ?_
  exact (Fin.sum_univ_fun_getElem t (fun b => k s[i.1] b)).symm

theorem total_comm (k : Row → Row → ℝ) (s t : List Row) :
    total (s.map fun a => t.map fun b => k a b) = total (t.map fun b => s.map fun a => k a b) := by
  rw [total_fin, total_fin (fun b a => k a b), Finset.sum_comm]

theorem map_zipIdx (f : Row → ℝ) (s : List Row) (n : Nat) : ((s.zipIdx n).map fun b => f b.1) = s.map f := by
  induction s generalizing n with
  | nil => rfl
  | cons a s ih => simp [List.zipIdx_cons, ih]

theorem gramSelf_eq (k : Row → Row → ℝ) (s : List Row)
    (h : ∀ a ∈ s, ∀ b ∈ s, k a b = k b a) : gramSelf k s = gram k s s := by
  have h' : gramSelf k s = s.zipIdx.map fun a => s.map fun b => k a.1 b := by
    rw [gramSelf]
    apply List.map_congr_left
    intro a ha
    rw [← map_zipIdx (k a.1) s 0]
    apply List.map_congr_left
    intro b hb
    have ha' := List.fst_mem_of_mem_zipIdx ha
    have hb' := List.fst_mem_of_mem_zipIdx hb
    split
    · rfl
    · exact h _ hb' _ ha'
  rw [h', gram]
  have : ∀ (f : Row → List ℝ) (s : List Row) (n : Nat), ((s.zipIdx n).map fun b => f b.1) = s.map f := by
    intro f s
    induction s with
    | nil => intro n; rfl
    | cons a s ih => intro n; simp [List.zipIdx_cons, ih]
  exact this (fun a => s.map fun b => k a b) _ _

theorem gram_length (k : Row → Row → ℝ) (s t : List Row) : (gram k s t).length = s.length := by simp [gram]

theorem gramSelf_length (k : Row → Row → ℝ) (s : List Row) : (gramSelf k s).length = s.length := by simp [gramSelf]

/-- The weights of the V-statistic: `1/m` for the first sample and `-1/n` for the second. -/
noncomputable def vweights (m n : Nat) : Fin m ⊕ Fin n → ℝ := Sum.elim (fun _ => 1 / (m : ℝ)) (fun _ => -1 / (n : ℝ))

/-- The pooled sample. -/
def pooled (s t : List Row) : Fin s.length ⊕ Fin t.length → Row := Sum.elim (fun i => s[i.1]) (fun j => t[j.1])

theorem vweights_sum (m n : Nat) (hm : m ≠ 0) (hn : n ≠ 0) : ∑ i, vweights m n i = 0 := by
  have : (m : ℝ) ≠ 0 := by exact_mod_cast hm
  have : (n : ℝ) ≠ 0 := by exact_mod_cast hn
  simp [vweights, Fintype.sum_sum_type]
  field_simp
  ring

/-- The biased estimate is the quadratic form of the kernel on the pooled sample. -/
theorem mmdV_form (k : Row → Row → ℝ) (s t : List Row) (hm : s ≠ []) (hn : t ≠ [])
    (hk : ∀ a ∈ s, ∀ b ∈ t, k a b = k b a) :
    mmdV (gram k s s) (gram k t t) (gram k s t)
      = some (form k (pooled s t) (vweights s.length t.length)) := by
  have lm : s.length ≠ 0 := by simpa using hm
  have ln : t.length ≠ 0 := by simpa using hn
  rw [mmdV]
  simp only [gram_length]
  rw [if_neg (by simp [lm, ln])]
  congr 1
  have e1 : total (gram k s s) = ∑ i : Fin s.length, ∑ j : Fin s.length, k s[i.1] s[j.1] := total_fin k s s
  have e2 : total (gram k t t) = ∑ i : Fin t.length, ∑ j : Fin t.length, k t[i.1] t[j.1] := total_fin k t t
  have e3 : total (gram k s t) = ∑ i : Fin s.length, ∑ j : Fin t.length, k s[i.1] t[j.1] := total_fin k s t
  have e4 : ∑ i : Fin t.length, ∑ j : Fin s.length, k t[i.1] s[j.1] = total (gram k s t) := by
    rw [e3, Finset.sum_comm]
    exact Finset.sum_congr rfl fun i _ => Finset.sum_congr rfl fun j _ =>
      (hk _ (List.getElem_mem _) _ (List.getElem_mem _)).symm
  rw [form, Fintype.sum_sum_type]
  simp only [Fintype.sum_sum_type, vweights, pooled, Sum.elim_inl, Sum.elim_inr, Finset.sum_add_distrib, ← Finset.mul_sum]
  rw [← e1, ← e2, e4, ← e3]
  have : (s.length : ℝ) ≠ 0 := by exact_mod_cast lm
  have : (t.length : ℝ) ≠ 0 := by exact_mod_cast ln
  field_simp
  ring

theorem offDiagonal_gram (k : Row → Row → ℝ) (s : List Row) :
    offDiagonal (gram k s s)
      = ∑ i : Fin s.length, ∑ j : Fin s.length, if j = i then 0 else k s[i.1] s[j.1] := by
  have z : ∀ {α : Type} (f : α → Nat → ℝ) (l : List α),
      (l.zipIdx.map fun e => f e.1 e.2).sum = ∑ i : Fin l.length, f l[i.1] i.1 := by
    intro α f l
    rw [← Fin.sum_univ_fun_getElem]
    have hl : l.zipIdx.length = l.length := by simp
    refine Fintype.sum_equiv (finCongr hl) _ _ fun i => ?_
    simp
  rw [offDiagonal, z (fun (r : List ℝ) i => (r.zipIdx.map fun e => if e.2 = i then e.1 - e.1 else e.1 - 0).sum)]
  have hl : (gram k s s).length = s.length := gram_length k s s
  refine Fintype.sum_equiv (finCongr hl) _ _ fun i => ?_
  rw [z (fun (e : ℝ) j => if j = i.1 then e - e else e - 0)]
  have hl2 : ((gram k s s)[i.1]).length = s.length := by simp [gram]
  refine Fintype.sum_equiv (finCongr hl2) _ _ fun j => ?_
  simp [gram, Fin.ext_iff]
  rfl

end Verif.Distance
