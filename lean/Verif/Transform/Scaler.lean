import Verif.Transform.Jacobian
/-
C56 for integers and C80 (`BoundedVarScaler`).
-/
namespace Verif.Transform

/-- **C56 is violated for integers**: the log Jacobian at `[2, 3]` is `-1` when they are given as integers and `-log 2 - log 3` when they are given as floats. -/
theorem C56_integers_violated (f32 : ℝ → ℝ) (h0 : f32 0 = 0) :
    let bs : List Bound := [(some 0, none), (some 0, none)]
    jac f32 bs [.int 2, .int 3] = .ok (-1) ∧ jac f32 bs [.real 2, .real 3] = .ok (-Real.log 2 - Real.log 3) ∧ -Real.log 2 - Real.log 3 < (-1 : ℝ) := by
  have l2 : (0 : ℝ) < Real.log 2 := Real.log_pos (by norm_num)
  have l3 : (0 : ℝ) < Real.log 3 := Real.log_pos (by norm_num)
  have c2 : ⌈-Real.log 2⌉ = 0 := by rw [Int.ceil_neg, log_two_floor]; rfl
  have c3 : ⌈-Real.log 3⌉ = -1 := by rw [Int.ceil_neg, log_three_floor]
  refine ⟨?_, ?_, ?_⟩
  · have n2 : ¬ (Real.log 2 ≤ 0) := by linarith
    have n3 : ¬ (Real.log 3 ≤ 0) := by linarith
    norm_num [jac, refused, jacAt, h0, Num.val, Num.isInt, collect, store, n2, n3, c2, c3]
  · norm_num [jac, refused, jacAt, h0, Num.val, Num.isInt, collect, store]
    ring
  · have h := Real.log_two_gt_d9
    have : (1 : ℝ) ≤ Real.log 3 := by
      have := log_three_floor
      rw [Int.floor_eq_iff] at this
      simpa using this.1
    linarith

/-! ### The scaler -/

theorem unscale_scale {s : ℝ × ℝ} (h : s.1 ≠ 0) (v : ℝ) : unscale s (scale s v) = v := by
  simp only [unscale, scale]; field_simp; ring

theorem scale_unscale {s : ℝ × ℝ} (h : s.1 ≠ 0) (v : ℝ) : scale s (unscale s v) = v := by
  simp only [unscale, scale]; field_simp; ring

theorem fitCol_ne {lo hi : ℝ} (h : lo < hi) (a b : ℝ) : (fitCol lo hi a b).1 ≠ 0 := by
  simp only [fitCol]
  have : (hi - lo) ≠ 0 := by linarith
  split
  · simpa using this
  · rename_i c; exact div_ne_zero this c

theorem fitCol_range {lo hi : ℝ} (h : lo < hi) {a b v : ℝ} (ha : a ≤ v) (hb : v ≤ b) :
    lo ≤ scale (fitCol lo hi a b) v ∧ scale (fitCol lo hi a b) v ≤ hi ∧ scale (fitCol lo hi a b) a = lo ∧
      (a < b → scale (fitCol lo hi a b) b = hi) := by
  have hl : 0 < hi - lo := by linarith
  simp only [fitCol, scale]
  by_cases c : b - a = 0
  · have : v = a := by linarith
    subst this
    rw [if_pos c]
    refine ⟨by linarith, by linarith, by ring, fun h => by linarith⟩
  · rw [if_neg c]
    have p : 0 < b - a := lt_of_le_of_ne (by linarith) (Ne.symm c)
    have e : v * ((hi - lo) / (b - a)) + (lo - a * ((hi - lo) / (b - a))) = lo + (hi - lo) * ((v - a) / (b - a)) := by field_simp; ring
    have q0 : 0 ≤ (v - a) / (b - a) := div_nonneg (by linarith) p.le
    have q1 : (v - a) / (b - a) ≤ 1 := by rw [div_le_one p]; linarith
    refine ⟨by rw [e]; nlinarith, by rw [e]; nlinarith, by ring, fun _ => by field_simp; ring⟩

theorem foldl_min_le (l : List ℝ) (a : ℝ) : l.foldl min a ≤ a ∧ ∀ x ∈ l, l.foldl min a ≤ x := by
  induction l generalizing a with
  | nil => simp
  | cons y l ih =>
    obtain ⟨h1, h2⟩ := ih (min a y)
    simp only [List.foldl_cons]
    refine ⟨h1.trans (min_le_left _ _), ?_⟩
    intro x hx
    rcases List.mem_cons.1 hx with rfl | hx
    · exact h1.trans (min_le_right _ _)
    · exact h2 x hx

theorem le_foldl_max (l : List ℝ) (a : ℝ) : a ≤ l.foldl max a ∧ ∀ x ∈ l, x ≤ l.foldl max a := by
  induction l generalizing a with
  | nil => simp
  | cons y l ih =>
    obtain ⟨h1, h2⟩ := ih (max a y)
    simp only [List.foldl_cons]
    refine ⟨(le_max_left _ _).trans h1, ?_⟩
    intro x hx
    rcases List.mem_cons.1 hx with rfl | hx
    · exact (le_max_right _ _).trans h1
    · exact h2 x hx

theorem zipWith_unscale {sc : List (ℝ × ℝ)} (h : ∀ s ∈ sc, s.1 ≠ 0) {y : List ℝ} (hl : sc.length = y.length) :
    List.zipWith unscale sc (List.zipWith scale sc y) = y ∧ List.zipWith scale sc (List.zipWith unscale sc y) = y := by
  induction sc generalizing y with
  | nil => cases y with
    | nil => simp
    | cons a y => simp at hl
  | cons s sc ih => cases y with
    | nil => simp at hl
    | cons a y =>
      obtain ⟨i1, i2⟩ := ih (fun s hs => h s (by simp [hs])) (y := y) (by simpa using hl)
      simp [i1, i2, unscale_scale (h s (by simp)), scale_unscale (h s (by simp))]

/-- **C80.** A fitted scaler (feature range `lo < hi`) and one that does not rescale are bijections: a row strictly inside the bounds is transformed and comes back; any row is
transformed back to one strictly inside whose transform it is. -/
theorem C80_bijection (f32 : ℝ → ℝ) (bs : List Bound) (hb : ∀ b ∈ bs, Proper f32 b) (lo hi : ℝ) (hlo : lo < hi) (first : List ℝ)
    (rest : List (List ℝ)) (hfit : first.length = bs.length) (rescale : Bool) :
    let sc := if rescale then some (fit lo hi first rest) else none
    (∀ x, AllInside bs x → ∃ y, rowTransform f32 bs sc x = .ok y ∧ rowInverse f32 bs sc y = .ok x) ∧
    (∀ y, y.length = bs.length → ∃ x, rowInverse f32 bs sc y = .ok x ∧ AllInside bs x ∧ rowTransform f32 bs sc x = .ok y) ∧
    (∀ x, x.length = bs.length → ¬ AllInside bs x → rowTransform f32 bs sc x = .error .outOfBounds) := by
  have hne : ∀ s ∈ fit lo hi first rest, s.1 ≠ 0 := by
    intro s hs
    simp only [fit, List.mem_map] at hs
    obtain ⟨i, -, rfl⟩ := hs
    exact fitCol_ne hlo _ _
  have hlen : (fit lo hi first rest).length = bs.length := by simp [fit, hfit]
  refine ⟨?_, ?_, ?_⟩
  · intro x hx
    obtain ⟨ys, e1, e2, e3⟩ := collect_fwd hb hx
    have hl := (List.Forall₂.length_eq hx).symm
    cases rescale with
    | false =>
      refine ⟨ys, ?_, ?_⟩
      · rw [rowTransform, if_neg (by simpa using hl), if_neg (by rw [any_refused hb hl]; simpa using hx), e1]; rfl
      · rw [rowInverse.eq_def, if_neg (by simpa using e2)]; simp [e3]
    | true =>
      refine ⟨List.zipWith scale (fit lo hi first rest) ys, ?_, ?_⟩
      · rw [rowTransform, if_neg (by simpa using hl), if_neg (by rw [any_refused hb hl]; simpa using hx), e1]
        simp [hlen, e2]
      · rw [rowInverse.eq_def, if_neg (by simp [hlen, e2])]
        simp [hlen, e2, (zipWith_unscale hne (by rw [hlen, e2])).1, e3]
  · intro y hl
    cases rescale with
    | false =>
      obtain ⟨i1, i2⟩ := collect_bwd hb hl
      refine ⟨List.zipWith (bwd f32) bs y, ?_, i1, ?_⟩
      · rw [rowInverse.eq_def, if_neg (by simpa using hl)]; rfl
      · rw [rowTransform, if_neg (by simp [hl]), if_neg (by rw [any_refused hb (by simp [hl])]; simpa using i1), i2]; rfl
    | true =>
      have hl' : (List.zipWith unscale (fit lo hi first rest) y).length = bs.length := by simp [hlen, hl]
      obtain ⟨i1, i2⟩ := collect_bwd hb hl'
      refine ⟨List.zipWith (bwd f32) bs (List.zipWith unscale (fit lo hi first rest) y), ?_, i1, ?_⟩
      · rw [rowInverse.eq_def, if_neg (by simpa using hl)]; simp [hlen, hl]
      · rw [rowTransform, if_neg (by simp [hl, hlen]), if_neg (by rw [any_refused hb (by simp [hl, hlen])]; simpa using i1), i2]
        simp [hlen, hl, (zipWith_unscale hne (by rw [hlen, hl])).2]
  · intro x hl hx
    rw [rowTransform, if_neg (by simpa using hl), if_pos ((any_refused hb hl).2 hx)]

/-- **C80, feature range.** After `fit` on a table of rows (all of them with one number per variable), every entry of every one of these rows is scaled into `[lo, hi]`. -/
theorem C80_range (lo hi : ℝ) (hlo : lo < hi) (first : List ℝ) (rest : List (List ℝ)) (hr : ∀ r ∈ rest, r.length = first.length)
    (row : List ℝ) (hrow : row ∈ first :: rest) : ∀ v ∈ List.zipWith scale (fit lo hi first rest) row, lo ≤ v ∧ v ≤ hi := by
  have hl : row.length = first.length := by
    rcases List.mem_cons.1 hrow with rfl | h
    · rfl
    · exact hr row h
  intro v hv
  obtain ⟨i, hi', rfl⟩ := List.mem_iff_getElem.1 hv
  simp only [List.length_zipWith, fit, List.length_map, List.length_range, hl, Nat.min_self] at hi'
  simp only [List.getElem_zipWith, fit, List.getElem_map, List.getElem_range]
  have hi2 : i < row.length := by rw [hl]; exact hi'
  have hmin := foldl_min_le (rest.map fun r => r.getD i 0) (first.getD i 0)
  have hmax := le_foldl_max (rest.map fun r => r.getD i 0) (first.getD i 0)
  have hg : row[i] = row.getD i 0 := by rw [List.getD_eq_getElem?_getD, List.getElem?_eq_getElem hi2]; rfl
  have b : (rest.map fun r => r.getD i 0).foldl min (first.getD i 0) ≤ row[i] ∧ row[i] ≤ (rest.map fun r => r.getD i 0).foldl max (first.getD i 0) := by
    rw [hg]
    rcases List.mem_cons.1 hrow with rfl | h
    · exact ⟨hmin.1, hmax.1⟩
    · exact ⟨hmin.2 _ (List.mem_map.2 ⟨row, h, rfl⟩), hmax.2 _ (List.mem_map.2 ⟨row, h, rfl⟩)⟩
  have := fitCol_range hlo b.1 b.2
  exact ⟨this.1, this.2.1⟩

example : fit 0 1 [1, 5] [[3, 5], [2, 5]] = [(1 / 2, -1 / 2), (1, -5)] := by
  norm_num [fit, fitCol, List.range_succ]

/-- The training table `[[1, 5], [3, 5], [2, 5]]` meets the hypotheses of `C80_range`; its row `[2, 5]` becomes `[1/2, 0]`. -/
example : List.zipWith scale [((1 : ℝ) / 2, (-1 : ℝ) / 2), (1, -5)] [2, 5] = [1 / 2, 0] := by norm_num [scale]

end Verif.Transform
