import Verif.Statistics.Model
import Mathlib.Algebra.BigOperators.Intervals
import Mathlib.Tactic.Linarith
import Mathlib.Tactic.FieldSimp
import Mathlib.Tactic.NormNum

/-!
# C62 and C84: polynomial expansion, and statistics computed observation by observation
-/

namespace Verif.Statistics

open Verif.Distance (Stats Row)
open Classical

/-! ## Specification -/

/-- The pairs of columns `i < j` below `d`, in lexicographic order. -/
def columnPairs (d : Nat) : List (Nat × Nat) := (List.range d ×ˢ List.range d).filter fun p => p.1 < p.2

/-- The documented columns for one row of width `d`: all statistics to the power 1, all to the power
2, ..., all to the power `k`; then, with `cross`, the products of all pairs of columns `i < j`. -/
noncomputable def columns (k : Nat) (cross : Bool) (d : Nat) (r : Row) : Row :=
  ((List.range k).flatMap fun p => r.map (· ^ (p + 1))) ++
  (if cross then (columnPairs d).map fun p => r.getD p.1 0 * r.getD p.2 0 else [])

/-! ## Lemmas -/

theorem zipWith_map_append (f g : Row → Row) (l : List Row) :
    List.zipWith (· ++ ·) (l.map f) (l.map g) = l.map fun r => f r ++ g r := by
  induction l with
  | nil => rfl
  | cons a l ih => simp [ih]

/-- Stacking columns computed row by row, in a loop. -/
theorem stack_loop {α : Type} (s : Stats) (g : α → Row → Row) (w : α → Nat) (l : List α) (f : Row → Row) (n : Nat) :
    l.foldl (fun r p => colStack r ⟨w p, s.rows.map (g p)⟩) ⟨n, s.rows.map f⟩
      = ⟨n + (l.map w).sum, s.rows.map fun r => f r ++ l.flatMap fun p => g p r⟩ := by
  induction l generalizing f n with
  | nil => simp
  | cons a l ih =>
    rw [List.foldl_cons]
    have : colStack ⟨n, s.rows.map f⟩ ⟨w a, s.rows.map (g a)⟩ = ⟨n + w a, s.rows.map fun r => f r ++ g a r⟩ := by
      rw [colStack, zipWith_map_append]
    rw [this, ih]
    simp [Nat.add_assoc, List.append_assoc]

theorem powers_eq (degree : Nat) (s : Stats) :
    powers degree s = ⟨max degree 1 * s.width,
      s.rows.map fun r => (List.range (max degree 1)).flatMap fun p => r.map (· ^ (p + 1))⟩ := by
  have h := stack_loop s (fun p r => r.map (· ^ p)) (fun _ => s.width) (List.range' 2 (degree + 1 - 2)) id s.width
  simp only [List.map_id, id_eq] at h
  rw [powers]
  show List.foldl (fun r p => colStack r (power s p)) s _ = _
  have e : (fun r p => colStack r (power s p)) = fun r p => colStack r ⟨s.width, s.rows.map fun r => r.map (· ^ p)⟩ := rfl
  rw [e]
  refine h.trans ?_
  have hm : max degree 1 = (degree + 1 - 2) + 1 := by omega
  rw [hm]
  congr 1
  · simp [List.map_const', List.sum_replicate]; ring
  · apply List.map_congr_left
    intro r _
    rw [List.range_succ_eq_map, List.flatMap_cons, List.range'_eq_map_range, List.flatMap_map, List.flatMap_map]
    congr 1
    · simp
    · congr 1
      funext p
      congr 2
      funext x
      congr 1
      omega

theorem filter_gt (d i : Nat) : (List.range d).filter (fun j => decide (i < j)) = List.range' (i + 1) (d - (i + 1)) := by
  induction d with
  | zero => simp
  | succ d ih =>
    rw [List.range_succ, List.filter_append, ih]
    by_cases h : i < d
    · have e : d + 1 - (i + 1) = (d - (i + 1)) + 1 := by omega
      rw [e, List.range'_concat]
      simp [h]
    · have e1 : d + 1 - (i + 1) = 0 := by omega
      have e2 : d - (i + 1) = 0 := by omega
      rw [e1, e2]
      simp [h]

theorem columnPairs_eq (d : Nat) :
    columnPairs d = (List.range d).flatMap fun i => (List.range' (i + 1) (d - (i + 1))).map fun j => (i, j) := by
  have h : ∀ (l : List Nat), (l ×ˢ List.range d).filter (fun p => decide (p.1 < p.2))
      = l.flatMap fun i => (List.range' (i + 1) (d - (i + 1))).map fun j => (i, j) := by
    intro l
    induction l with
    | nil => rfl
    | cons i l ih =>
      have hp : (i :: l) ×ˢ List.range d = (List.range d).map (fun j => (i, j)) ++ l ×ˢ List.range d :=
        List.product_cons i l _
      rw [hp, List.filter_append, ih, List.flatMap_cons, List.filter_map]
      congr 1
      rw [← filter_gt]
      rfl
  exact h _

theorem columnPairs_length (d : Nat) : (columnPairs d).length = d * (d - 1) / 2 := by
  rw [columnPairs_eq, List.length_flatMap]
  simp only [List.length_map, List.length_range']
  have h1 : ((List.range d).map fun i => d - (i + 1)).sum = ∑ i ∈ Finset.range d, (d - 1 - i) := by
    rw [Finset.sum, Finset.range_val, Multiset.range, Multiset.map_coe, Multiset.sum_coe]
    congr 1
    apply List.map_congr_left
    intro i _
    omega
  rw [h1, Finset.sum_range_reflect (fun i => i) d, Finset.sum_range_id]

theorem cross_eq (s : Stats) (f : Row → Row) (n : Nat) (l : List Nat) :
    l.foldl (crossInner s) ⟨n, s.rows.map f⟩ = ⟨n + (l.map fun i => s.width - (i + 1)).sum,
      s.rows.map fun r => f r ++ l.flatMap fun i => (List.range' (i + 1) (s.width - (i + 1))).map
        fun j => r.getD i 0 * r.getD j 0⟩ := by
  induction l generalizing f n with
  | nil => simp
  | cons i l ih =>
    rw [List.foldl_cons]
    have h := stack_loop s (fun j r => [r.getD i 0 * r.getD j 0]) (fun _ => 1)
      (List.range' (i + 1) (s.width - (i + 1))) f n
    have e : crossInner s ⟨n, s.rows.map f⟩ i = ⟨n + (s.width - (i + 1)),
        s.rows.map fun r => f r ++ (List.range' (i + 1) (s.width - (i + 1))).map fun j => r.getD i 0 * r.getD j 0⟩ := by
      rw [crossInner]
      refine h.trans ?_
      congr 1
      · simp [List.map_const', List.sum_replicate]
      · apply List.map_congr_left
        intro r _
        congr 1
        exact List.map_eq_flatMap.symm
    rw [e, ih]
    simp [Nat.add_assoc, List.append_assoc]

/-! ## C62 -/

/-- C62: the expansion of any array, to any degree, with or without cross products: every row is
expanded on its own, into the documented columns in the documented order; a degree of zero is treated
as one. The number of columns is `k d`, plus `d (d - 1) / 2` with cross products. -/
theorem C62 (degree : Nat) (cross : Bool) (s : Stats) (hr : s.Rect) :
    (expand degree cross s).rows = s.rows.map (columns (max degree 1) cross s.width) ∧
    (expand degree cross s).width = max degree 1 * s.width + (if cross then s.width * (s.width - 1) / 2 else 0) ∧
    (expand degree cross s).Rect := by
  have main : expand degree cross s =
      ⟨max degree 1 * s.width + (if cross then (columnPairs s.width).length else 0),
        s.rows.map (columns (max degree 1) cross s.width)⟩ := by
    rw [expand]
    simp only [powers_eq]
    cases cross with
    | false => simp [columns]
    | true =>
      by_cases hw : s.width > 1
      · simp only [hw, decide_true, Bool.and_self, if_true]
        rw [cross_eq]
        congr 1
        · rw [columnPairs_eq, List.length_flatMap]
          simp
        · apply List.map_congr_left
          intro r _
          rw [columns, columnPairs_eq, if_pos rfl, List.map_flatMap]
          congr 2
          funext i
          rw [List.map_map]
          rfl
      · have hz : columnPairs s.width = [] := by
          have : s.width = 0 ∨ s.width = 1 := by omega
          rcases this with h | h <;> rw [h] <;> rfl
        simp [hw, hz, columns]
  rw [main]
  refine ⟨rfl, ?_, ?_⟩
  · cases cross <;> simp [columnPairs_length]
  · intro r hrow
    obtain ⟨q, hq, rfl⟩ := List.mem_map.1 hrow
    have hl := hr q hq
    cases cross <;> simp [columns, List.length_flatMap, hl, List.map_const', List.sum_replicate]

/-- A concrete expansion of two rows of width three to degree two with cross products. -/
example : (⟨3, [[1, 2, 3], [0, 1, 5]]⟩ : Stats).Rect ∧
    (expand 2 true ⟨3, [[1, 2, 3], [0, 1, 5]]⟩).rows = [[1, 2, 3, 1, 4, 9, 2, 3, 6], [0, 1, 5, 0, 1, 25, 0, 0, 5]] := by
  have hr : (⟨3, [[1, 2, 3], [0, 1, 5]]⟩ : Stats).Rect := by simp [Stats.Rect]
  refine ⟨hr, ?_⟩
  rw [(C62 2 true _ hr).1]
  have hp : columnPairs 3 = [(0, 1), (0, 2), (1, 2)] := rfl
  norm_num [columns, hp, List.range_succ]

/-! ## C84 -/

/-- An operation on arrays of width `w` that treats every row on its own: it is refused for all of
them, or replaces every row by a function of that row. -/
def RowWise (F : Stats → Option Stats) : Prop :=
  ∀ w, (∀ s : Stats, s.width = w → s.Rect → F s = none) ∨
    ∃ (w' : Nat) (φ : Row → Row), (∀ r, r.length = w → (φ r).length = w') ∧
      ∀ s : Stats, s.width = w → s.Rect → F s = some ⟨w', s.rows.map φ⟩

theorem RowWise.comp {F G : Stats → Option Stats} (hF : RowWise F) (hG : RowWise G) :
    RowWise fun s => (F s).bind G := by
  intro w
  rcases hF w with h | ⟨w1, φ, hl, h⟩
  · exact .inl fun s hs hr => by show (F s).bind G = none; rw [h s hs hr]; rfl
  · have rect : ∀ s : Stats, s.width = w → s.Rect → (⟨w1, s.rows.map φ⟩ : Stats).Rect := by
      intro s hs hr r hm
      obtain ⟨q, hq, rfl⟩ := List.mem_map.1 hm
      exact hl q (by rw [hr q hq, hs])
    rcases hG w1 with g | ⟨w2, ψ, gl, g⟩
    · exact .inl fun s hs hr => by
        show (F s).bind G = none
        rw [h s hs hr, Option.bind_some]
        exact g _ rfl (rect s hs hr)
    · refine .inr ⟨w2, ψ ∘ φ, fun r hr => gl _ (hl r hr), fun s hs hr => ?_⟩
      show (F s).bind G = _
      rw [h s hs hr, Option.bind_some, g _ rfl (rect s hs hr), List.map_map]

theorem rowWise_some : RowWise some := fun w => .inr ⟨w, id, fun _ h => h, fun s hs _ => by cases s; cases hs; simp⟩

theorem rowWise_kind (k : Kind) : RowWise k.apply := by
  cases k with
  | identity => exact rowWise_some
  | linear n cols =>
    intro w
    by_cases h : w = n
    · refine .inr ⟨cols.length, fun r => cols.map fun c => (List.zipWith (· * ·) r c).sum, by simp, fun s hs _ => ?_⟩
      rw [Kind.apply, if_neg (by rw [hs, h]; simp)]
    · exact .inl fun s hs _ => by rw [Kind.apply, if_pos (by rw [hs]; exact h)]

theorem rowWise_expand (degree : Nat) (cross : Bool) : RowWise fun s => some (expand degree cross s) := by
  intro w
  refine .inr ⟨max degree 1 * w + (if cross then w * (w - 1) / 2 else 0), columns (max degree 1) cross w, ?_, ?_⟩
  · intro r hr
    have h := C62 degree cross ⟨w, [r]⟩ (by simpa [Stats.Rect] using hr)
    have := h.2.2 (columns (max degree 1) cross w r) (by rw [h.1]; simp)
    rw [this, h.2.1]
  · intro s hs hr
    obtain ⟨h1, h2, -⟩ := C62 degree cross s hr
    rw [← hs, ← h1, ← h2]

theorem rowWise_rescale (sd : Option (List ℝ)) : RowWise (rescale sd) := by
  cases sd with
  | none => exact rowWise_some
  | some sd =>
    intro w
    by_cases h : w = sd.length
    · by_cases h0 : 0 ∈ sd
      · refine .inl fun s hs _ => ?_
        rw [rescale]
        rw [if_neg (by rw [hs, h]; simp), if_pos h0]
      · refine .inr ⟨w, fun r => List.zipWith (· / ·) r sd, fun r hr => by simp [hr, h], fun s hs _ => ?_⟩
        rw [rescale]
        rw [if_neg (by rw [hs, h]; simp), if_neg h0, hs]
    · refine .inl fun s hs _ => ?_
      rw [rescale]
      rw [if_pos (by rw [hs]; exact h)]

theorem rowWise_step (p : Step) : RowWise p.apply := by
  have h := (rowWise_kind p.kind).comp ((rowWise_expand p.degree p.cross).comp (rowWise_rescale p.std))
  exact h

theorem rowWise_chain (chain : List Step) : RowWise fun s => chain.foldlM (fun s p => p.apply s) s := by
  induction chain with
  | nil => exact rowWise_some
  | cons p chain ih =>
    have := (rowWise_step p).comp ih
    exact this

/-- All observations have the same size. -/
def OneSize (data : List (List ℝ)) (k : Nat) : Prop := data ≠ [] ∧ ∀ v ∈ data, v.length = k

theorem toArray_eq (data : List (List ℝ)) (k : Nat) (h : OneSize data k) : toArray data = some ⟨k, data⟩ := by
  obtain ⟨hne, hs⟩ := h
  cases data with
  | nil => exact absurd rfl hne
  | cons v l =>
    have hv := hs v (by simp)
    rw [toArray, if_pos, hv]
    rw [List.all_eq_true]
    intro u hu
    rw [hs u (by simp [hu]), hv]
    simp

/-- C84: for every chain of statistics objects and every size of observations, either every data set
of observations of that size is refused, or there is one row of statistics for each observation,
computed from that observation alone: it is the row that the chain returns for the data set
consisting of this observation. -/
theorem C84 (chain : List Step) (k : Nat) :
    (∀ data, OneSize data k → statistics chain data = none) ∨
    ∃ w, ∀ data, OneSize data k → ∃ s, statistics chain data = some s ∧ s.width = w ∧ s.Rect ∧
      s.rows.length = data.length ∧
      ∀ i (h1 : i < data.length) (h2 : i < s.rows.length), statistics chain [data[i]] = some ⟨w, [s.rows[i]]⟩ := by
  have rect : ∀ data, OneSize data k → (⟨k, data⟩ : Stats).Rect := fun data h => h.2
  rcases rowWise_chain chain k with h | ⟨w, φ, hl, h⟩
  · refine .inl fun data hd => ?_
    rw [statistics, toArray_eq data k hd, Option.bind_some]
    exact h _ rfl (rect data hd)
  · have key : ∀ data, OneSize data k → statistics chain data = some ⟨w, data.map φ⟩ := by
      intro data hd
      rw [statistics, toArray_eq data k hd, Option.bind_some]
      exact h _ rfl (rect data hd)
    refine .inr ⟨w, fun data hd => ⟨_, key data hd, rfl, ?_, by simp, ?_⟩⟩
    · intro r hr
      obtain ⟨q, hq, rfl⟩ := List.mem_map.1 hr
      exact hl q (hd.2 q hq)
    · intro i h1 h2
      rw [key [data[i]] ⟨by simp, by simpa using hd.2 _ (List.getElem_mem h1)⟩]
      simp

/-- Observations of different sizes are refused by every chain. -/
theorem C84_ragged (chain : List Step) (data : List (List ℝ)) (u v : List ℝ) (hu : u ∈ data) (hv : v ∈ data)
    (h : u.length ≠ v.length) : statistics chain data = none := by
  have : toArray data = none := by
    cases data with
    | nil => simp at hu
    | cons a l =>
      rw [toArray, if_neg]
      intro hall
      rw [List.all_eq_true] at hall
      have hlen : ∀ x ∈ a :: l, x.length = a.length := by
        intro x hx
        rcases List.mem_cons.1 hx with rfl | hx
        · rfl
        · simpa using hall x hx
      exact h ((hlen u hu).trans (hlen v hv).symm)
  rw [statistics, this]; rfl

/-- The standard deviation of a list of numbers. -/
noncomputable def sdCol (col : List ℝ) : ℝ :=
  Real.sqrt ((col.map fun x => (x - col.sum / (col.length : ℝ)) ^ 2).sum / (col.length : ℝ))

theorem getElem_std (s : Stats) (j : Nat) (h : j < (std s).length) :
    (std s)[j] = sdCol (s.rows.map fun r => r.getD j 0) := by
  simp only [std, List.getElem_map, List.getElem_range]
  rfl

theorem sum_div (sd : ℝ) (l : List ℝ) : (l.map (· / sd)).sum = l.sum / sd := by
  induction l with
  | nil => simp
  | cons a l ih => simp only [List.map_cons, List.sum_cons, ih]; ring

theorem sum_sq_div (sd m : ℝ) (l : List ℝ) :
    ((l.map (· / sd)).map fun x => (x - m / sd) ^ 2).sum = (l.map fun x => (x - m) ^ 2).sum / sd ^ 2 := by
  induction l with
  | nil => simp
  | cons a l ih => simp only [List.map_cons, List.sum_cons, ih]; ring

theorem sdCol_scaled (col : List ℝ) (h : sdCol col ≠ 0) : sdCol (col.map (· / sdCol col)) = 1 := by
  generalize hsd : sdCol col = sd at *
  have hq : 0 ≤ (col.map fun x => (x - col.sum / (col.length : ℝ)) ^ 2).sum / (col.length : ℝ) := by
    apply div_nonneg _ (by positivity)
    apply List.sum_nonneg
    intro y hy
    obtain ⟨x, _, rfl⟩ := List.mem_map.1 hy
    exact sq_nonneg _
  have hsq : sd ^ 2 = (col.map fun x => (x - col.sum / (col.length : ℝ)) ^ 2).sum / (col.length : ℝ) := by
    rw [← hsd, sdCol, Real.sq_sqrt hq]
  have h2 : sd ^ 2 ≠ 0 := pow_ne_zero 2 h
  have e : col.sum / sd / (col.length : ℝ) = col.sum / (col.length : ℝ) / sd := by ring
  rw [sdCol, List.length_map, sum_div, e, sum_sq_div, div_right_comm, ← hsq, div_self h2, Real.sqrt_one]

theorem std_scaled (s : Stats) (hr : s.Rect) (h0 : 0 ∉ std s) :
    std ⟨s.width, s.rows.map fun r => List.zipWith (· / ·) r (std s)⟩ = List.replicate s.width 1 := by
  apply List.ext_getElem (by simp [std])
  intro j h1 h2
  have hj : j < s.width := by simpa using h2
  have hj2 : j < (std s).length := by simpa [std] using hj
  have hsd : (std s)[j] ≠ 0 := fun h => h0 (h ▸ List.getElem_mem _)
  have hcol : (s.rows.map fun r => List.zipWith (· / ·) r (std s)).map (fun r => r.getD j 0)
      = (s.rows.map fun r => r.getD j 0).map (· / (std s)[j]) := by
    rw [List.map_map, List.map_map]
    apply List.map_congr_left
    intro r hrow
    have hl := hr r hrow
    have hj3 : j < r.length := by omega
    show (List.zipWith (· / ·) r (std s)).getD j 0 = r.getD j 0 / (std s)[j]
    simp [List.getD_eq_getElem?_getD, List.getElem?_zipWith, hj2, hj3]
  rw [List.getElem_replicate, getElem_std, hcol, getElem_std]
  rw [getElem_std] at hsd
  exact sdCol_scaled _ hsd

/-- C84, rescaling: an object made with reference simulations (no statistic of which is constant)
returns for these simulations statistics with standard deviation one in every column. -/
theorem C84_rescale (chain : List Step) (kind : Kind) (degree : Nat) (cross : Bool) (sims : List (List ℝ)) (k : Nat)
    (hk : OneSize sims k) (chain' : List Step) (hn : new chain kind degree cross (some sims) = some chain')
    (s : Stats) (hs : statistics chain' sims = some s) : std s = List.replicate s.width 1 := by
  rw [new] at hn
  cases h0 : statistics (chain ++ [⟨kind, degree, cross, none⟩]) sims with
  | none => rw [h0] at hn; cases hn
  | some s0 =>
    rw [h0] at hn
    simp only at hn
    have hrect : s0.Rect := by
      rcases C84 (chain ++ [⟨kind, degree, cross, none⟩]) k with h | ⟨w, h⟩
      · rw [h sims hk] at h0; cases h0
      · obtain ⟨s', h1, -, h3, -⟩ := h sims hk
        rw [h1] at h0
        exact Option.some.inj h0 ▸ h3
    by_cases he : s0.rows = []
    · rw [if_pos he] at hn; cases hn
    · rw [if_neg he] at hn
      have hn := (Option.some.inj hn).symm
      subst hn
      -- the last step of the chain is the same apart from the rescaling
      have key : ∀ sd, statistics (chain ++ [⟨kind, degree, cross, sd⟩]) sims
          = (statistics (chain ++ [⟨kind, degree, cross, none⟩]) sims).bind (rescale sd) := by
        intro sd
        simp only [statistics, List.foldlM_append]
        cases toArray sims with
        | none => rfl
        | some a =>
          simp only [Option.bind_some]
          show Option.bind (chain.foldlM (fun s p => p.apply s) a) _ = Option.bind (Option.bind _ _) _
          cases chain.foldlM (fun s p => p.apply s) a with
          | none => rfl
          | some b =>
            simp only [Option.bind_some, List.foldlM_cons, List.foldlM_nil, Step.apply]
            cases kind.apply b with
            | none => rfl
            | some c =>
              simp only [Option.bind_some, rescale]
              show Option.bind (rescale sd (expand degree cross c)) some = rescale sd (expand degree cross c)
              cases rescale sd (expand degree cross c) <;> rfl
      rw [key, h0, Option.bind_some, rescale] at hs
      have hw : s0.width = (std s0).length := by simp [std]
      rw [if_neg (by rw [← hw]; simp)] at hs
      by_cases hz : 0 ∈ std s0
      · rw [if_pos hz] at hs; cases hs
      · rw [if_neg hz] at hs
        rw [← Option.some.inj hs]
        exact std_scaled s0 hrect hz

/-- A chain of two objects: the identity with cross products, then a linear map of the three
columns; the statistics of two observations of size two. -/
example : OneSize [[1, 2], [3, 4]] 2 ∧
    statistics [⟨.identity, 1, true, none⟩, ⟨.linear 3 [[1, 0, 1], [0, 2, 0]], 1, false, none⟩] [[1, 2], [3, 4]]
      = some ⟨2, [[3, 4], [15, 8]]⟩ := by
  refine ⟨⟨by simp, by simp⟩, ?_⟩
  norm_num [statistics, toArray, Step.apply, Kind.apply, expand, powers, crossInner, colStack, product, rescale,
    List.range_succ, List.foldlM]

end Verif.Statistics
