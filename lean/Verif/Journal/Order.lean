import Verif.Journal.Props
import Verif.Journal.HistogramProps
import Verif.Cov.Props
/-
C206: what a journal reports about a population depends neither on the order of its particles nor, up to the counts of the histogram, on the unit of their weights.
-/
namespace Verif.Journal

/-! ### Specification -/

/-- The particles in another order: particle `k` of the result is particle `order[k]`. -/
def reorder (order : List Nat) (params : List (String × List (List ℝ))) : List (String × List (List ℝ)) :=
  params.map fun q => (q.1, order.map fun k => q.2.getD k [])

/-- Their weights in that order. -/
noncomputable def reorderWeights (order : List Nat) (w : List ℝ) : List ℝ := order.map fun k => w.getD k 0

/-- A table of particles: one row for every weight under every name, and the rows of a name have one length. -/
def Table (params : List (String × List (List ℝ))) (w : List ℝ) : Prop :=
  ∀ q ∈ params, q.2.length = w.length ∧ ∃ d, ∀ r ∈ q.2, r.length = d

/-! ### Lists in another order -/

theorem range_getD {α : Type} (l : List α) (d : α) : (List.range l.length).map (fun k => l.getD k d) = l := by
  refine List.ext_getElem (by simp) fun i h1 h2 => ?_
  simp [List.getD_eq_getElem?_getD, h2]

theorem pick_perm {α : Type} {order : List Nat} (l : List α) (d : α) (ho : order.Perm (List.range l.length)) : (order.map fun k => l.getD k d).Perm l := by
  have := ho.map fun k => l.getD k d
  rwa [range_getD] at this

theorem pick_zip {α β : Type} {order : List Nat} (l : List α) (m : List β) (d : α) (e : β) (hl : l.length = m.length) (ho : order.Perm (List.range m.length)) :
    ((order.map fun k => l.getD k d).zip (order.map fun k => m.getD k e)).Perm (l.zip m) := by
  rw [List.zip_map']
  have := ho.map fun k => (l.getD k d, m.getD k e)
  refine this.trans (List.Perm.of_eq ?_)
  rw [← List.zip_map', ← hl, range_getD, hl, range_getD]

theorem pick_small {α : Type} {order : List Nat} (l : List α) (d : α) (ho : order.Perm (List.range l.length)) (h : l.length ≤ 1) : (order.map fun k => l.getD k d) = l := by
  have hp := pick_perm l d ho
  match l, h with
  | [], _ => exact List.perm_nil.1 hp
  | [a], _ => exact List.perm_singleton.1 hp

/-! ### Means -/

theorem essOf_perm {v w : List ℝ} (h : v.Perm w) : essOf v = essOf w := by
  unfold essOf
  rw [h.sum_eq, ((h.map _).map _).sum_eq]

theorem zipWith_sum_zip (x w : List ℝ) : (List.zipWith (· * ·) x w).sum = ((x.zip w).map fun p => p.1 * p.2).sum := by
  rw [← List.map_uncurry_zip_eq_zipWith]; rfl

theorem npAverage_perm {x w x' w' : List ℝ} (hx : x'.length = x.length) (hw : w'.Perm w) (h : (x'.zip w').Perm (x.zip w)) : npAverage x' w' = npAverage x w := by
  unfold npAverage
  rw [hx, hw.length_eq, hw.sum_eq, zipWith_sum_zip, zipWith_sum_zip, (h.map _).sum_eq]

theorem averageRows_perm (order : List Nat) (rows : List (List ℝ)) (w : List ℝ) (d : Nat) (hl : rows.length = w.length) (hd : ∀ r ∈ rows, r.length = d) (ho : order.Perm (List.range w.length)) :
    averageRows (reorderWeights order w) (squeeze (order.map fun k => rows.getD k [])) = averageRows w (squeeze rows) := by
  have ho' : order.Perm (List.range rows.length) := hl ▸ ho
  by_cases h1 : w.length ≤ 1
  · rw [pick_small rows [] ho' (hl ▸ h1), reorderWeights, pick_small w 0 ho h1]
  have hp := pick_perm rows [] ho'
  have key : ∀ f : List ℝ → ℝ, npAverage ((order.map fun k => rows.getD k []).map f) (reorderWeights order w) = npAverage (rows.map f) w := by
    intro f
    refine npAverage_perm (by simp [ho.length_eq, hl]) (pick_perm w 0 ho) ?_
    have := (pick_zip rows w [] 0 hl ho).map (Prod.map f id)
    rwa [← List.zip_map_left, ← List.zip_map_left] at this
  have sq : ∀ l : List (List ℝ), 2 ≤ l.length → squeeze l = if l.all fun r => r.length = 1 then .vector (l.map fun r => r.headD 0) else .matrix l := by
    intro l h2
    match l, h2 with
    | a :: b :: l, _ => rw [squeeze] <;> simp
  have hall : ((order.map fun k => rows.getD k []).all fun r => decide (r.length = 1)) = rows.all fun r => decide (r.length = 1) := hp.all_eq
  have hhead : ∀ l : List (List ℝ), 2 ≤ l.length → (∀ r ∈ l, r.length = d) → (l.headD []).length = d := by
    intro l h2 h
    match l, h2 with
    | a :: l, _ => exact h a (by simp)
  rw [sq _ (by rw [hp.length_eq]; omega), sq rows (by omega), hall]
  by_cases h : rows.all fun r => decide (r.length = 1)
  · rw [if_pos h, if_pos h, averageRows, averageRows, key]
  · rw [if_neg h, if_neg h, averageRows, averageRows, hhead _ (by rw [hp.length_eq]; omega) (fun r hr => hd r (hp.mem_iff.1 hr)), hhead rows (by omega) hd]
    simp only [key]

/-! ### Covariances -/

theorem npCov_perm {d : Nat} {x x' : List (Fin d → ℝ)} {w w' : List ℝ} (hx : x'.length = x.length) (hw : w'.Perm w) (h : (x'.zip w').Perm (x.zip w)) : Cov.npCov x' (some w') = Cov.npCov x (some w) := by
  have havg : ∀ j, Cov.average w' (x'.map (· j)) = Cov.average w (x.map (· j)) := by
    intro j
    unfold Cov.average
    have e : ∀ (a : List ℝ) (b : List (Fin d → ℝ)), (List.zipWith (· * ·) a (b.map (· j))).sum = ((b.zip a).map fun p => p.2 * p.1 j).sum := by
      intro a b
      induction b generalizing a with
      | nil => simp
      | cons y b ih => cases a with
        | nil => simp
        | cons c a => simp [ih]
    rw [e, e, (h.map _).sum_eq, hw.sum_eq]
  have hex : (∃ a ∈ w', a < 0) ↔ ∃ a ∈ w, a < 0 := by simp only [hw.mem_iff]
  unfold Cov.npCov
  simp only [Option.getD_some, hw.length_eq, hx, hw.sum_eq, (hw.map _).sum_eq, hex, havg]
  split_ifs
  · rfl
  · rfl
  · congr 1
    ext i j
    simp only [Matrix.of_apply]
    have e : ∀ (a : List ℝ) (b : List (Fin d → ℝ)) (f g : (Fin d → ℝ) → ℝ), (List.zipWith (· * ·) (b.map f) (List.zipWith (· * ·) (b.map g) a)).sum = ((b.zip a).map fun p => f p.1 * (g p.1 * p.2)).sum := by
      intro a b f g
      induction b generalizing a with
      | nil => simp
      | cons y b ih => cases a with
        | nil => simp
        | cons c a => simp [ih]
    rw [e, e, (h.map _).sum_eq]

theorem flat_length {params : List (String × List (List ℝ))} {w : List ℝ} (ht : Table params w) : ∃ d, ∀ k < w.length, (params.map fun q => q.2.getD k []).flatten.length = d := by
  induction params with
  | nil => exact ⟨0, by simp⟩
  | cons q params ih =>
    obtain ⟨d, hd⟩ := ih fun q hq => ht q (by simp [hq])
    obtain ⟨hl, e, he⟩ := ht q (by simp)
    refine ⟨e + d, fun k hk => ?_⟩
    rw [List.map_cons, List.flatten_cons, List.length_append, hd k hk, List.getD_eq_getElem _ _ (by omega), he _ (by simp)]

theorem Table.reorder {params : List (String × List (List ℝ))} {w : List ℝ} (ht : Table params w) {order : List Nat} (ho : order.Perm (List.range w.length)) :
    Table (reorder order params) (reorderWeights order w) := by
  intro q hq
  obtain ⟨p, hp, rfl⟩ := List.mem_map.1 hq
  obtain ⟨hl, d, hd⟩ := ht p hp
  refine ⟨by simp [reorderWeights], d, fun r hr => hd r ?_⟩
  exact (pick_perm p.2 [] (hl ▸ ho)).mem_iff.1 hr

/-- The particles of the table as a list. -/
theorem rows_reorder {params : List (String × List (List ℝ))} {w : List ℝ} {order : List Nat} (ho : order.Perm (List.range w.length)) :
    ((List.range w.length).map fun k => (reorder order params).map fun q => q.2.getD k []) = order.map fun k => params.map fun q => q.2.getD k [] := by
  refine List.ext_getElem (by simp [ho.length_eq]) fun i h1 h2 => ?_
  simp only [List.length_map] at h2
  simp [Journal.reorder, List.getD_eq_getElem?_getD, h2]

theorem posteriorCov_table {params : List (String × List (List ℝ))} {w : List ℝ} (ht : Table params w) (hp : params ≠ []) :
    Cov.posteriorCov params w = (Cov.calculateCov ((List.range w.length).map fun k => params.map fun q => q.2.getD k []) (some w)).map fun m => (m, params.map (·.1)) := by
  cases params with
  | nil => exact absurd rfl hp
  | cons p rest =>
    unfold Cov.posteriorCov
    simp only
    rw [if_pos, (ht p (by simp)).1]
    rw [List.all_eq_true]
    intro q hq
    simp [(ht q (by simp [hq])).1, (ht p (by simp)).1]

/-! ### Histograms -/

theorem posteriorHistogram_table {params : List (String × List (List ℝ))} {w : List ℝ} (ht : Table params w) (hp : params ≠ []) (h1 : 0 < w.length) (d : Nat)
    (hd : ∀ k < w.length, (params.map fun q => q.2.getD k []).flatten.length = d) (n : Nat) :
    posteriorHistogram params w n = histogramdd (((List.range w.length).map fun k => params.map fun q => q.2.getD k []).map List.flatten) d n w := by
  cases params with
  | nil => exact absurd rfl hp
  | cons p rest =>
    unfold posteriorHistogram
    simp only
    rw [if_pos, (ht p (by simp)).1]
    · rw [List.map_map]
      obtain ⟨m, hm⟩ : ∃ m, w.length = m + 1 := ⟨w.length - 1, by omega⟩
      rw [hm] at hd ⊢
      rw [List.range_succ_eq_map]
      simp only [List.map_cons, Function.comp_apply]
      have h0 := hd 0 (by omega)
      simp only [List.map_cons] at h0
      rw [if_pos, h0]
      · rfl
      rw [List.all_eq_true]
      intro r hr
      obtain ⟨k, hk, rfl⟩ := List.mem_map.1 hr
      obtain ⟨j, hj, rfl⟩ := List.mem_map.1 hk
      have := hd (j + 1) (by have := List.mem_range.1 hj; omega)
      simp only [List.map_cons] at this
      rw [decide_eq_true_iff, h0]
      exact this
    · rw [List.all_eq_true]
      intro q hq
      simp [(ht q (by simp [hq])).1, (ht p (by simp)).1]

theorem outerEdges_perm {x y : List ℝ} (h : x.Perm y) : outerEdges x = outerEdges y := by
  cases x with
  | nil => rw [List.nil_perm.1 h]
  | cons a x => cases y with
    | nil => exact absurd h (by simp)
    | cons b y =>
      have h1 : x.foldl min a = y.foldl min b := by
        obtain ⟨p1, p2⟩ := foldl_min_spec x a
        obtain ⟨q1, q2⟩ := foldl_min_spec y b
        exact le_antisymm (p2 _ (h.mem_iff.2 q1)) (q2 _ (h.mem_iff.1 p1))
      have h2 : x.foldl max a = y.foldl max b := by
        obtain ⟨p1, p2⟩ := foldl_max_spec x a
        obtain ⟨q1, q2⟩ := foldl_max_spec y b
        exact le_antisymm (q2 _ (h.mem_iff.1 p1)) (p2 _ (h.mem_iff.2 q1))
      simp only [outerEdges, h1, h2]

theorem bincount_perm {xy xy' : List Nat} {w w' : List ℝ} (hx : xy'.Perm xy) (hw : w'.length = w.length) (h : (xy'.zip w').Perm (xy.zip w)) (m : Nat) : bincount xy' w' m = bincount xy w m := by
  have hf : xy'.foldr (fun a b => max (a + 1) b) m = xy.foldr (fun a b => max (a + 1) b) m :=
    hx.foldr_eq' (fun a _ b _ c => by omega) m
  unfold bincount
  rw [hx.length_eq, hw, hf]
  have : ∀ b, (((xy'.zip w').filter fun p => p.1 == b).map (·.2)).sum = (((xy.zip w).filter fun p => p.1 == b).map (·.2)).sum := fun b => ((h.filter _).map _).sum_eq
  simp only [this]

theorem histogramdd_perm {s s' : List (List ℝ)} {w w' : List ℝ} (hs : s'.Perm s) (hw : w'.length = w.length) (h : (s'.zip w').Perm (s.zip w)) (d n : Nat) : histogramdd s' d n w' = histogramdd s d n w := by
  unfold histogramdd
  have he : ∀ j, outerEdges (s'.map fun r => r.getD j 0) = outerEdges (s.map fun r => r.getD j 0) := fun j => outerEdges_perm (hs.map _)
  simp only [he]
  have hb : ∀ (f : List ℝ → Nat) (m : Nat), bincount (s'.map f) w' m = bincount (s.map f) w m := by
    intro f m
    refine bincount_perm (hs.map f) hw ?_ m
    have := h.map (Prod.map f id)
    rwa [← List.zip_map_left, ← List.zip_map_left] at this
  simp only [hb]

/-! ### The property -/

/-- C206, order: if the particles of a step and their weights are put into another order (the same one for every parameter), then `posterior_mean`, `posterior_cov`, `posterior_histogram` and the
effective sample size are what they were: the same numbers, the same names, the same cells and edges, and an exception exactly if there was one. -/
theorem C206_order (params : List (String × List (List ℝ))) (w : List ℝ) (order : List Nat) (ht : Table params w) (ho : order.Perm (List.range w.length)) :
    posteriorMean [reorder order params] [reorderWeights order w] none = posteriorMean [params] [w] none ∧
    Cov.posteriorCov (reorder order params) (reorderWeights order w) = Cov.posteriorCov params w ∧
    (∀ n, posteriorHistogram (reorder order params) (reorderWeights order w) n = posteriorHistogram params w n) ∧
    essOf (reorderWeights order w) = essOf w := by
  have hw : (reorderWeights order w).Perm w := pick_perm w 0 ho
  have hlen : (reorderWeights order w).length = w.length := hw.length_eq
  refine ⟨?_, ?_⟩
  · have e : ∀ (p : List (String × List (List ℝ))) (v : List ℝ), posteriorMean [p] [v] none = collect (p.map fun e => (averageRows v (squeeze e.2)).map fun m => (e.1, m)) := by
      intro p v
      simp [posteriorMean, Models.pyIndex]
    rw [e, e, reorder, List.map_map]
    congr 1
    refine List.map_congr_left fun q hq => ?_
    obtain ⟨hl, d, hd⟩ := ht q hq
    simp only [Function.comp_apply]
    rw [averageRows_perm order q.2 w d hl hd ho]
  by_cases hp : params = []
  · subst hp
    refine ⟨rfl, fun n => rfl, essOf_perm hw⟩
  have hp' : reorder order params ≠ [] := by simpa [reorder] using hp
  have ht' := ht.reorder ho
  obtain ⟨d, hd⟩ := flat_length ht
  have hrows := rows_reorder (params := params) ho
  have hmem : ∀ k ∈ order, k < w.length := fun k hk => List.mem_range.1 (ho.mem_iff.1 hk)
  have hz : ∀ {β : Type} (f : List (List ℝ) → β), ((((order.map fun k => params.map fun q => q.2.getD k []).map f)).zip (reorderWeights order w)).Perm
      (((((List.range w.length).map fun k => params.map fun q => q.2.getD k []).map f)).zip w) := by
    intro β f
    rw [List.map_map, List.map_map, reorderWeights, List.zip_map']
    refine (ho.map _).trans (List.Perm.of_eq ?_)
    conv_rhs => rw [← range_getD w 0]
    rw [List.length_map, List.length_range, List.zip_map']
  have hnames : (reorder order params).map (·.1) = params.map (·.1) := by simp [reorder, Function.comp_def]
  refine ⟨?_, fun n => ?_, essOf_perm hw⟩
  · rw [posteriorCov_table ht' hp', posteriorCov_table ht hp, hnames, hlen, hrows]
    congr 1
    by_cases h0 : w.length = 0
    · have hw0 : w = [] := List.length_eq_zero_iff.1 h0
      subst hw0
      have ho0 : order = [] := by simpa using ho
      subst ho0
      rfl
    · have hne : order ≠ [] := by rintro rfl; exact h0 (by have := ho.length_eq; simp at this; omega)
      rw [Cov.calculateCov_eq _ _ d (by simpa using hne) (by
          intro b hb; obtain ⟨k, hk, rfl⟩ := List.mem_map.1 hb; exact hd k (hmem k hk)),
        Cov.calculateCov_eq _ _ d (by simpa using h0) (by
          intro b hb; obtain ⟨k, hk, rfl⟩ := List.mem_map.1 hb; exact hd k (List.mem_range.1 hk))]
      rw [npCov_perm (by simp [ho.length_eq]) hw (hz (Cov.point d))]
  · by_cases h0 : 0 < w.length
    · have hd' : ∀ k < (reorderWeights order w).length, ((reorder order params).map fun q => q.2.getD k []).flatten.length = d := by
        intro k hk
        rw [hlen] at hk
        have := congrArg (fun l => l[k]?.getD []) hrows
        beta_reduce at this
        rw [List.getElem?_map, List.getElem?_map, List.getElem?_range hk, List.getElem?_eq_getElem (by rw [ho.length_eq]; simpa using hk)] at this
        simp only [Option.map_some, Option.getD_some] at this
        rw [this]
        exact hd _ (hmem _ (List.getElem_mem _))
      rw [posteriorHistogram_table ht' hp' (hlen ▸ h0) d hd', posteriorHistogram_table ht hp h0 d hd, hlen, hrows]
      exact histogramdd_perm ((ho.map _).map _) hlen (hz _) d n
    · have hw0 : w = [] := List.length_eq_zero_iff.1 (by omega)
      subst hw0
      have ho0 : order = [] := by simpa using ho
      subst ho0
      cases params with
      | nil => exact absurd rfl hp
      | cons p rest =>
        have hpl : p.2 = [] := List.length_eq_zero_iff.1 (ht p (by simp)).1
        simp [reorder, posteriorHistogram, hpl]

/-! ### The unit of the weights -/

/-- A histogram whose entries are multiplied by `c`. -/
noncomputable def Hist.times (c : ℝ) (h : Hist) : Hist := ⟨h.shape, fun cell => c * h.at_ cell, h.edges⟩

theorem sum_scale {A : Type} (l : List A) (f : A → ℝ) (c : ℝ) : (l.map fun a => c * f a).sum = c * (l.map f).sum := by
  induction l with
  | nil => simp
  | cons a l ih => simp only [List.map_cons, List.sum_cons, ih]; ring

theorem sum_scale' (l : List ℝ) (c : ℝ) : (l.map fun a => c * a).sum = c * l.sum := by
  have := sum_scale l id c
  simpa using this

theorem npAverage_scale (x w : List ℝ) (c : ℝ) (hc : 0 < c) : npAverage x (w.map fun a => c * a) = npAverage x w := by
  unfold npAverage
  rw [List.length_map, sum_scale']
  have e : (List.zipWith (· * ·) x (w.map fun a => c * a)).sum = c * (List.zipWith (· * ·) x w).sum := by
    rw [zipWith_sum_zip, zipWith_sum_zip, List.zip_map_right, List.map_map, ← sum_scale]
    congr 1
    refine List.map_congr_left fun p _ => ?_
    simp only [Function.comp_apply, Prod.map_fst, Prod.map_snd, id]
    ring
  simp only [mul_eq_zero, hc.ne', false_or, e, mul_div_mul_left _ _ hc.ne']

theorem averageRows_scale (a : Arr) (w : List ℝ) (c : ℝ) (hc : 0 < c) : averageRows (w.map fun a => c * a) a = averageRows w a := by
  cases a <;> simp only [averageRows, npAverage_scale _ _ c hc]

theorem npCov_scale {d : Nat} (x : List (Fin d → ℝ)) (w : List ℝ) (c : ℝ) (hc : 0 < c) : Cov.npCov x (some (w.map fun a => c * a)) = Cov.npCov x (some w) := by
  have havg : ∀ y : List ℝ, Cov.average (w.map fun a => c * a) y = Cov.average w y := by
    intro y
    unfold Cov.average
    rw [sum_scale', zipWith_sum_zip, zipWith_sum_zip, List.zip_map_left, List.map_map]
    have : ((w.zip y).map ((fun p : ℝ × ℝ => p.1 * p.2) ∘ Prod.map (fun a => c * a) id)).sum = c * ((w.zip y).map fun p => p.1 * p.2).sum := by
      rw [← sum_scale]
      congr 1
      refine List.map_congr_left fun p _ => ?_
      simp only [Function.comp_apply, Prod.map_fst, Prod.map_snd, id]
      ring
    rw [this, mul_div_mul_left _ _ hc.ne']
  have hex : (∃ a ∈ w.map fun a => c * a, a < 0) ↔ ∃ a ∈ w, a < 0 := by
    simp [mul_neg_iff, hc, hc.not_gt]
  have hsq : ((w.map fun a => c * a).map fun a => a * a).sum = c * (c * (w.map fun a => a * a).sum) := by
    rw [← sum_scale, ← sum_scale, List.map_map]
    congr 1
    refine List.map_congr_left fun p _ => ?_
    simp only [Function.comp_apply]
    ring
  have hfact : c * w.sum - 1 * (c * (c * (w.map fun a => a * a).sum)) / (c * w.sum) = c * (w.sum - 1 * (w.map fun a => a * a).sum / w.sum) := by
    rw [mul_sub, one_mul, one_mul, mul_div_mul_left _ _ hc.ne', mul_div_assoc]
  have hle : c * (w.sum - 1 * (w.map fun a => a * a).sum / w.sum) ≤ 0 ↔ w.sum - 1 * (w.map fun a => a * a).sum / w.sum ≤ 0 := by
    constructor
    · intro h
      by_contra hn
      exact absurd (mul_pos hc (not_le.1 hn)) (not_lt.2 h)
    · intro h
      exact mul_nonpos_of_nonneg_of_nonpos hc.le h
  unfold Cov.npCov
  simp only [Option.getD_some, List.length_map, sum_scale', hsq, hfact, hle, hex, havg, mul_eq_zero, hc.ne', false_or]
  split_ifs
  · rfl
  · rfl
  · congr 1
    ext i j
    simp only [Matrix.of_apply]
    have e : ∀ (a : List ℝ) (b g : List ℝ), (List.zipWith (· * ·) b (List.zipWith (· * ·) g (a.map fun v => c * v))).sum = c * (List.zipWith (· * ·) b (List.zipWith (· * ·) g a)).sum := by
      intro a b g
      induction b generalizing a g with
      | nil => simp
      | cons y b ih => cases a with
        | nil => simp
        | cons v a => cases g with
          | nil => simp
          | cons z g => simp only [List.map_cons, List.zipWith_cons_cons, List.sum_cons, ih]; ring
    rw [e, one_div_mul_eq_div, one_div_mul_eq_div, mul_div_mul_left _ _ hc.ne']

theorem calculateCov_scale (table : List (List (List ℝ))) (w : List ℝ) (c : ℝ) (hc : 0 < c) : Cov.calculateCov table (some (w.map fun a => c * a)) = Cov.calculateCov table (some w) := by
  unfold Cov.calculateCov
  simp only [npCov_scale _ _ c hc]

theorem bincount_scale (xy : List Nat) (w : List ℝ) (m : Nat) (c : ℝ) : bincount xy (w.map fun a => c * a) m = (bincount xy w m).map fun l => l.map fun a => c * a := by
  unfold bincount
  rw [List.length_map]
  split_ifs
  · rfl
  · simp only [Option.map_some, List.map_map]
    congr 1
    refine List.map_congr_left fun b _ => ?_
    simp only [Function.comp_apply]
    rw [List.zip_map_right, List.filter_map, List.map_map, ← sum_scale]
    rfl

theorem histogramdd_scale (s : List (List ℝ)) (d n : Nat) (w : List ℝ) (c : ℝ) : histogramdd s d n (w.map fun a => c * a) = (histogramdd s d n w).map (Hist.times c) := by
  unfold histogramdd
  simp only [bincount_scale]
  split_ifs
  · rfl
  · generalize bincount _ w _ = b
    cases b with
    | none => rfl
    | some flat =>
      simp only [Option.map_some, List.length_map]
      split_ifs
      · rfl
      · simp only [Option.map_some, Hist.times]
        congr 2
        funext idx
        rw [List.getD_eq_getElem?_getD, List.getD_eq_getElem?_getD, List.getElem?_map]
        cases flat[ravel (idx.map (· + 1)) _]? <;> simp

/-- C206, unit: if all weights of a step are multiplied by the same positive number, then `posterior_mean`, `posterior_cov` and the effective sample size are what they were, and the entries of
`posterior_histogram` are multiplied by that number, with the same cells and edges. -/
theorem C206_unit (params : List (String × List (List ℝ))) (w : List ℝ) (c : ℝ) (hc : 0 < c) :
    posteriorMean [params] [w.map fun a => c * a] none = posteriorMean [params] [w] none ∧
    Cov.posteriorCov params (w.map fun a => c * a) = Cov.posteriorCov params w ∧
    (∀ n, posteriorHistogram params (w.map fun a => c * a) n = (posteriorHistogram params w n).map (Hist.times c)) ∧
    essOf (w.map fun a => c * a) = essOf w := by
  refine ⟨?_, ?_, fun n => ?_, ?_⟩
  · simp [posteriorMean, Models.pyIndex, averageRows_scale _ _ c hc]
  · unfold Cov.posteriorCov
    simp only [calculateCov_scale _ _ c hc]
  · unfold posteriorHistogram
    simp only [histogramdd_scale]
    cases params with
    | nil => rfl
    | cons p rest =>
      simp only
      split_ifs
      · split
        · rfl
        · split_ifs <;> rfl
      · rfl
  · unfold essOf
    simp only [sum_scale', List.map_map, Function.comp_def, mul_div_mul_left _ _ hc.ne']

/-- Three particles with a number and a pair each, the last one put first. The mean is that of `C32`, the covariance matrix exists by `C121_posterior`, and the weights may be counts. -/
example : Table [("a", [[1], [2], [7]]), ("b", [[1, 5], [2, 7], [0, 0]])] [1, 3, 4] ∧ [2, 0, 1].Perm (List.range 3) ∧
    reorder [2, 0, 1] [("a", [[1], [2], [7]]), ("b", [[1, 5], [2, 7], [0, 0]])] = [("a", [[7], [1], [2]]), ("b", [[0, 0], [1, 5], [2, 7]])] ∧
    reorderWeights [2, 0, 1] [1, 3, 4] = [4, 1, 3] := by
  refine ⟨?_, by decide, by simp [reorder], by simp [reorderWeights]⟩
  intro q hq
  rcases List.mem_cons.1 hq with rfl | hq
  · exact ⟨rfl, 1, by simp⟩
  · rcases List.mem_cons.1 hq with rfl | hq
    · exact ⟨rfl, 2, by simp⟩
    · simp at hq

/-- There all four are defined. -/
example : (posteriorMean [[("a", [[1], [2], [7]])]] [[1, 3, 4]] none).isSome ∧ (Cov.posteriorCov [("a", [[1], [2], [7]])] [1, 3, 4]).isSome := by
  constructor
  · obtain ⟨out, h, -⟩ := C32_posterior_mean_partial [[("a", [[1], [2], [7]])]] [[1, 3, 4]] none [("a", [[1], [2], [7]])] [1, 3, 4]
      (fun _ => 1) rfl rfl (by simp) (by simp) (by simp) (by simp) (by norm_num)
    rw [h]; rfl
  · obtain ⟨C, h, -⟩ := Cov.C121_posterior [("a", [[1], [2], [7]])] [1, 3, 4] 1 (by simp) (by simp) (by
        intro k hk; simp only [List.length_cons, List.length_nil] at hk; interval_cases k <;> simp) (by simp) (by norm_num [List.filter])
    rw [h]; rfl

end Verif.Journal
