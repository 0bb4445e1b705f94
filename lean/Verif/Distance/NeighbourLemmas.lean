import Verif.Distance.Lemmas
import Mathlib.Algebra.BigOperators.Group.List.Lemmas

/-! Helper lemmas about nearest neighbours: sorting, reordering and affine maps of the rows. -/

namespace Verif.Distance

open Classical

/-! Reordering. -/

theorem kth_perm {pts pts' : List Row} (h : pts.Perm pts') (k : Nat) (p : Row) : kth pts k p = kth pts' k p := by
  have : (pts.map (euclid p)).insertionSort (· ≤ ·) = (pts'.map (euclid p)).insertionSort (· ≤ ·) :=
    ((List.perm_insertionSort _ _).trans ((h.map _).trans (List.perm_insertionSort _ _).symm)).eq_of_pairwise'
      (List.pairwise_insertionSort _ _) (List.pairwise_insertionSort _ _)
  rw [kth, kth, this]

theorem collect_map {α : Type} (f : α → Option ℝ) (s : List α) :
    collect (s.map f) = if ∀ p ∈ s, (f p).isSome then some (s.map fun p => (f p).getD 0) else none := by
  induction s with
  | nil => simp [collect]
  | cons a s ih =>
    rw [List.map_cons]
    cases hf : f a with
    | none => simp [collect, hf]
    | some x =>
      rw [collect, ih]
      by_cases h : ∀ p ∈ s, (f p).isSome
      · rw [if_pos h, if_pos (by simpa [hf] using h)]
        simp [hf]
      · rw [if_neg h, if_neg (by simpa [hf] using h)]

/-- The value of `kth` where it exists. -/
noncomputable def kv (pts : List Row) (k : Nat) (p : Row) : ℝ := (kth pts k p).getD 0

/-- All rows of `s` have a `k`-th neighbour in `pts`. -/
def kok (pts : List Row) (k : Nat) (s : List Row) : Prop := ∀ p ∈ s, (kth pts k p).isSome

theorem rho_eq (s : List Row) (k : Nat) : rho s k = if kok s (k + 1) s then some (s.map (kv s (k + 1))) else none :=
  (collect_map _ _).trans (if_congr Iff.rfl rfl rfl)

theorem nu_eq (s t : List Row) (k : Nat) : nu s t k = if kok t k s then some (s.map (kv t k)) else none :=
  (collect_map _ _).trans (if_congr Iff.rfl rfl rfl)

theorem kv_perm {pts pts' : List Row} (h : pts.Perm pts') (k : Nat) : kv pts k = kv pts' k := by
  funext p; rw [kv, kv, kth_perm h]

theorem kok_perm {pts pts' s s' : List Row} (h : pts.Perm pts') (hs : s.Perm s') (k : Nat) :
    kok pts k s ↔ kok pts' k s' := by
  simp only [kok, kth_perm h, hs.mem_iff]

theorem zip_map (f : ℝ → ℝ → ℝ) (a b : Row → ℝ) (s : List Row) :
    List.zipWith f (s.map a) (s.map b) = s.map fun p => f (a p) (b p) := by
  induction s with
  | nil => rfl
  | cons x s ih => simp [ih]

theorem sum_map_perm (f : Row → ℝ) {s s' : List Row} (h : s.Perm s') : (s.map f).sum = (s'.map f).sum :=
  (h.map f).sum_eq

/-- An array with its rows in another order. -/
def Stats.Reorder (s s' : Stats) : Prop := s.width = s'.width ∧ s.rows.Perm s'.rows

theorem klEst_perm {s1 s1' s2 s2' : Stats} (h1 : s1.Reorder s1') (h2 : s2.Reorder s2') (k : Nat) :
    klEst s1 s2 k = klEst s1' s2' k := by
  obtain ⟨w1, p1⟩ := h1
  obtain ⟨w2, p2⟩ := h2
  rw [klEst, klEst, rho_eq, rho_eq, nu_eq, nu_eq, kv_perm p1, kv_perm p2]
  simp only [kok_perm p1 p1, kok_perm p2 p1, p1.length_eq, p2.length_eq, w1]
  by_cases hr : kok s1'.rows (k + 1) s1'.rows
  · by_cases hn : kok s2'.rows k s1'.rows
    · simp only [if_pos hr, if_pos hn, zip_map, sum_map_perm _ p1, (p1.map _).mem_iff]
    · simp [if_neg hn]
  · simp [if_neg hr]

theorem gammaEst_perm {s1 s1' s2 s2' : Stats} (h1 : s1.Reorder s1') (h2 : s2.Reorder s2') (k : Nat) (g : ℝ) :
    gammaEst s1 s2 k g = gammaEst s1' s2' k g := by
  obtain ⟨w1, p1⟩ := h1
  obtain ⟨w2, p2⟩ := h2
  rw [gammaEst, gammaEst, rho_eq, rho_eq, nu_eq, nu_eq, rho_eq, rho_eq, kv_perm p1, kv_perm p2, kv_perm p2]
  simp only [kok_perm p1 p1, kok_perm p2 p1, kok_perm p2 p2, p1.length_eq, p2.length_eq, w1]
  by_cases hr : kok s1'.rows (k + 1) s1'.rows
  · by_cases hn : kok s2'.rows k s1'.rows
    · by_cases hq : kok s2'.rows (k + 1) s2'.rows
      · simp only [if_pos hr, if_pos hn, if_pos hq, List.map_map, sum_map_perm _ p1, sum_map_perm _ p2,
          (p1.map _).mem_iff, (p2.map _).mem_iff]
      · simp [if_neg hq]
    · simp [if_neg hn]
  · simp [if_neg hr]

theorem hellingerHalf_perm {s1 s1' s2 s2' : Stats} (h1 : s1.Reorder s1') (h2 : s2.Reorder s2') (k : Nat) :
    hellingerHalf s1 s2 k = hellingerHalf s1' s2' k := by
  obtain ⟨w1, p1⟩ := h1
  obtain ⟨w2, p2⟩ := h2
  rw [hellingerHalf, hellingerHalf, rho_eq, rho_eq, nu_eq, nu_eq, kv_perm p1, kv_perm p2]
  simp only [kok_perm p1 p1, kok_perm p2 p1, p1.length_eq, p2.length_eq, w1]
  by_cases hr : kok s1'.rows (k + 1) s1'.rows
  · by_cases hn : kok s2'.rows k s1'.rows
    · simp only [if_pos hr, if_pos hn, zip_map, sum_map_perm _ p1, (p1.map _).mem_iff]
    · simp [if_neg hn]
  · simp [if_neg hr]

/-! Matrices. -/

theorem total_perm (k : Row → Row → ℝ) {s s' t t' : List Row} (hs : s.Perm s') (ht : t.Perm t') :
    total (gram k s t) = total (gram k s' t') := by
  simp only [total, gram, List.map_map]
  have : ∀ a, (t.map fun b => k a b).sum = (t'.map fun b => k a b).sum := fun a => sum_map_perm _ ht
  show (s.map fun a => (t.map fun b => k a b).sum).sum = (s'.map fun a => (t'.map fun b => k a b).sum).sum
  simp only [this]
  exact sum_map_perm _ hs

theorem offDiagonal_eq (k : Row → Row → ℝ) (s : List Row) :
    offDiagonal (gram k s s) = total (gram k s s) - (s.map fun a => k a a).sum := by
  have e : total (gram k s s) = ∑ i : Fin s.length, ∑ j : Fin s.length, k s[i.1] s[j.1] := total_fin k s s
  rw [offDiagonal_gram, e, ← Fin.sum_univ_fun_getElem, ← Finset.sum_sub_distrib]
  refine Finset.sum_congr rfl fun i _ => ?_
  rw [← Finset.sum_erase_eq_sub (Finset.mem_univ i), ← Finset.sum_filter_add_sum_filter_not Finset.univ (fun j => j = i)]
  have h1 : (∑ j : Fin s.length with j = i, if j = i then (0 : ℝ) else k s[i.1] s[j.1]) = 0 :=
    Finset.sum_eq_zero fun j hj => by rw [if_pos (Finset.mem_filter.1 hj).2]
  rw [h1, zero_add]
  refine Finset.sum_congr (by ext j; simp) fun j hj => ?_
  rw [if_neg (by simpa using hj)]

theorem offDiagonal_perm (k : Row → Row → ℝ) {s s' : List Row} (hs : s.Perm s') :
    offDiagonal (gram k s s) = offDiagonal (gram k s' s') := by
  rw [offDiagonal_eq, offDiagonal_eq, total_perm k hs hs, sum_map_perm _ hs]

/-! Affine maps. -/

/-- Change of units and origin: every statistic is multiplied by `c`, then `t` is added. -/
def affine (c : ℝ) (t : Row) (a : Row) : Row := List.zipWith (fun x y => c * x + y) a t

theorem euclid_affine (c : ℝ) (hc : 0 < c) (t a b : Row) (ha : a.length = t.length) (hb : b.length = t.length) :
    euclid (affine c t a) (affine c t b) = c * euclid a b := by
  have h : ∀ (t a b : Row), a.length = t.length → b.length = t.length →
      (List.zipWith (fun x y => (x - y) ^ 2) (affine c t a) (affine c t b)).sum
        = c ^ 2 * (List.zipWith (fun x y => (x - y) ^ 2) a b).sum := by
    intro t
    induction t with
    | nil =>
      intro a b ha hb
      have ha' := List.eq_nil_of_length_eq_zero ha
      subst ha'
      simp [affine]
    | cons z t ih =>
      intro a b ha hb
      obtain ⟨x, a, rfl⟩ := List.exists_cons_of_length_eq_add_one ha
      obtain ⟨y, b, rfl⟩ := List.exists_cons_of_length_eq_add_one hb
      simp only [List.length_cons, Nat.add_right_cancel_iff] at ha hb
      have := ih a b ha hb
      simp only [affine] at this
      simp only [affine, List.zipWith_cons_cons, List.sum_cons, this]
      ring
  rw [euclid, h t a b ha hb, Real.sqrt_mul (sq_nonneg c), Real.sqrt_sq hc.le, euclid]

theorem kth_affine (c : ℝ) (hc : 0 < c) (t : Row) (pts : List Row) (hp : ∀ q ∈ pts, q.length = t.length) (k : Nat)
    (p : Row) (hpl : p.length = t.length) :
    kth (pts.map (affine c t)) k (affine c t p) = (kth pts k p).map (c * ·) := by
  rw [kth, kth]
  by_cases hk : k = 0
  · simp [hk]
  · rw [if_neg hk, if_neg hk]
    have e : (pts.map (affine c t)).map (euclid (affine c t p)) = (pts.map (euclid p)).map (c * ·) := by
      rw [List.map_map, List.map_map]
      apply List.map_congr_left
      intro q hq
      exact euclid_affine c hc t p q hpl (hp q hq)
    rw [e, ← List.map_insertionSort (r := (· ≤ ·)) (s := (· ≤ ·)) (c * ·) _
      (fun a _ b _ => (mul_le_mul_iff_right₀ hc).symm), List.getElem?_map]

theorem collect_map_map {α : Type} (f g : α → Option ℝ) (φ : ℝ → ℝ) (s : List α) (h : ∀ p ∈ s, g p = (f p).map φ) :
    collect (s.map g) = (collect (s.map f)).map (List.map φ) := by
  induction s with
  | nil => rfl
  | cons a s ih =>
    rw [List.map_cons, List.map_cons, h a (by simp)]
    have ih' := ih fun p hp => h p (by simp [hp])
    cases hf : f a with
    | none => rfl
    | some x =>
      simp only [Option.map_some, collect, ih']
      cases collect (s.map f) <;> rfl

theorem rho_affine (c : ℝ) (hc : 0 < c) (t : Row) (s : List Row) (hs : ∀ q ∈ s, q.length = t.length) (k : Nat) :
    rho (s.map (affine c t)) k = (rho s k).map (List.map (c * ·)) := by
  rw [rho, rho, List.map_map]
  exact collect_map_map _ _ _ _ fun p hp => kth_affine c hc t s hs _ p (hs p hp)

theorem nu_affine (c : ℝ) (hc : 0 < c) (t : Row) (s u : List Row) (hs : ∀ q ∈ s, q.length = t.length)
    (hu : ∀ q ∈ u, q.length = t.length) (k : Nat) :
    nu (s.map (affine c t)) (u.map (affine c t)) k = (nu s u k).map (List.map (c * ·)) := by
  rw [nu, nu, List.map_map]
  exact collect_map_map _ _ _ _ fun p hp => kth_affine c hc t u hu _ p (hs p hp)

/-- The array in other units. -/
def Stats.affine (c : ℝ) (t : Row) (s : Stats) : Stats := ⟨s.width, s.rows.map (Distance.affine c t)⟩

theorem zero_mem_scaled (c : ℝ) (hc : 0 < c) (l : List ℝ) : 0 ∈ l.map (c * ·) ↔ 0 ∈ l := by
  simp only [List.mem_map, mul_eq_zero]
  constructor
  · rintro ⟨a, ha, h | h⟩
    · exact absurd h hc.ne'
    · exact h ▸ ha
  · intro h; exact ⟨0, h, .inr rfl⟩

theorem zipWith_scaled (f : ℝ → ℝ → ℝ) (c : ℝ) (hf : ∀ a b, f (c * a) (c * b) = f a b) (r v : List ℝ) :
    List.zipWith f (r.map (c * ·)) (v.map (c * ·)) = List.zipWith f r v := by
  induction r generalizing v with
  | nil => rfl
  | cons a r ih =>
    cases v with
    | nil => rfl
    | cons b v => simp only [List.map_cons, List.zipWith_cons_cons, hf, ih]

theorem klEst_affine (c : ℝ) (hc : 0 < c) (t : Row) (s1 s2 : Stats) (h1 : ∀ q ∈ s1.rows, q.length = t.length)
    (h2 : ∀ q ∈ s2.rows, q.length = t.length) (k : Nat) :
    klEst (s1.affine c t) (s2.affine c t) k = klEst s1 s2 k := by
  rw [klEst, klEst]
  simp only [Stats.affine, rho_affine c hc t _ h1, nu_affine c hc t _ _ h1 h2, List.length_map]
  cases rho s1.rows k with
  | none => rfl
  | some r =>
    cases nu s1.rows s2.rows k with
    | none => rfl
    | some v =>
      simp only [Option.map_some, zero_mem_scaled c hc]
      rw [zipWith_scaled (fun a b => Real.log (b / a)) c (fun a b => by rw [mul_div_mul_left _ _ hc.ne'])]

theorem hellingerHalf_affine (c : ℝ) (hc : 0 < c) (t : Row) (s1 s2 : Stats) (h1 : ∀ q ∈ s1.rows, q.length = t.length)
    (h2 : ∀ q ∈ s2.rows, q.length = t.length) (k : Nat) :
    hellingerHalf (s1.affine c t) (s2.affine c t) k = hellingerHalf s1 s2 k := by
  rw [hellingerHalf, hellingerHalf]
  simp only [Stats.affine, rho_affine c hc t _ h1, nu_affine c hc t _ _ h1 h2, List.length_map]
  cases rho s1.rows k with
  | none => rfl
  | some r =>
    cases nu s1.rows s2.rows k with
    | none => rfl
    | some v =>
      simp only [Option.map_some, zero_mem_scaled c hc]
      rw [zipWith_scaled (fun a b => (a / b) ^ ((s1.width : ℝ) / 2)) c (fun a b => by rw [mul_div_mul_left _ _ hc.ne'])]

/-! Every distance is non-negative. -/

theorem kth_nonneg (pts : List Row) (k : Nat) (p : Row) (v : ℝ) (h : kth pts k p = some v) : 0 ≤ v := by
  rw [kth] at h
  by_cases hk : k = 0
  · rw [if_pos hk] at h; cases h
  · rw [if_neg hk] at h
    have hm := (List.mem_insertionSort (· ≤ ·)).1 (List.mem_of_getElem? h)
    obtain ⟨q, _, rfl⟩ := List.mem_map.1 hm
    exact euclid_nonneg _ _

theorem collect_nonneg {α : Type} (f : α → Option ℝ) (hf : ∀ p v, f p = some v → 0 ≤ v) (s : List α) (r : List ℝ)
    (h : collect (s.map f) = some r) : ∀ x ∈ r, 0 ≤ x := by
  rw [collect_eq_some] at h
  intro x hx
  have : some x ∈ s.map f := by rw [h]; exact List.mem_map.2 ⟨x, hx, rfl⟩
  obtain ⟨p, _, hp⟩ := List.mem_map.1 this
  exact hf p x hp

end Verif.Distance
