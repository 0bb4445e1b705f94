import Verif.Journal.Histogram
import Mathlib.Algebra.Order.Floor.Semiring
import Mathlib.Data.Real.Archimedean
import Mathlib.Data.List.GetD
import Mathlib.Tactic.IntervalCases
import Mathlib.Algebra.BigOperators.Group.List.Lemmas
/-
C162: what `posterior_histogram` returns.
-/
namespace Verif.Journal

/-! ### Specification -/

/-- The value `x` lies in bin `i` of `n` bins of equal width between `lo` and `hi`: from its left end on, up to but without its right end, which belongs to the last bin only. -/
def InBin (lo hi : ℝ) (n i : Nat) (x : ℝ) : Prop :=
  lo + i * ((hi - lo) / n) ≤ x ∧ (x < lo + (i + 1) * ((hi - lo) / n) ∨ i + 1 = n ∧ x = hi)

/-- `lo` and `hi` are the range of the values: the smallest and the largest one, or one half below and above if all are equal. -/
def IsRange (values : List ℝ) (lo hi : ℝ) : Prop :=
  (lo < hi ∧ lo ∈ values ∧ hi ∈ values ∧ ∀ x ∈ values, lo ≤ x ∧ x ≤ hi) ∨ (∃ v, (∀ x ∈ values, x = v) ∧ v ∈ values ∧ lo = v - 1 / 2 ∧ hi = v + 1 / 2)

/-- The values of particle `k`: entry `k` of every parameter, joined in the order of the parameters. -/
noncomputable def particle (params : List (String × List (List ℝ))) (k : Nat) : List ℝ := (params.map fun q => q.2.getD k []).flatten

/-! ### One dimension -/

theorem foldl_min_spec (xs : List ℝ) (x : ℝ) : xs.foldl min x ∈ x :: xs ∧ ∀ y ∈ x :: xs, xs.foldl min x ≤ y := by
  induction xs generalizing x with
  | nil => simp
  | cons a xs ih =>
    obtain ⟨h1, h2⟩ := ih (min x a)
    rw [List.foldl_cons]
    refine ⟨?_, ?_⟩
    · rcases List.mem_cons.1 h1 with h | h
      · rw [h]; rcases min_choice x a with e | e <;> rw [e] <;> simp
      · simp [h]
    · intro y hy
      have h0 := h2 (min x a) (by simp)
      rcases List.mem_cons.1 hy with rfl | hy
      · exact h0.trans (min_le_left _ _)
      · rcases List.mem_cons.1 hy with rfl | hy
        · exact h0.trans (min_le_right _ _)
        · exact h2 y (by simp [hy])

theorem foldl_max_spec (xs : List ℝ) (x : ℝ) : xs.foldl max x ∈ x :: xs ∧ ∀ y ∈ x :: xs, y ≤ xs.foldl max x := by
  induction xs generalizing x with
  | nil => simp
  | cons a xs ih =>
    obtain ⟨h1, h2⟩ := ih (max x a)
    rw [List.foldl_cons]
    refine ⟨?_, ?_⟩
    · rcases List.mem_cons.1 h1 with h | h
      · rw [h]; rcases max_choice x a with e | e <;> rw [e] <;> simp
      · simp [h]
    · intro y hy
      have h0 := h2 (max x a) (by simp)
      rcases List.mem_cons.1 hy with rfl | hy
      · exact (le_max_left _ _).trans h0
      · rcases List.mem_cons.1 hy with rfl | hy
        · exact (le_max_right _ _).trans h0
        · exact h2 y (by simp [hy])

theorem outerEdges_range (values : List ℝ) (h : values ≠ []) : IsRange values (outerEdges values).1 (outerEdges values).2 := by
  cases values with
  | nil => exact absurd rfl h
  | cons x xs =>
    obtain ⟨a1, a2⟩ := foldl_min_spec xs x
    obtain ⟨b1, b2⟩ := foldl_max_spec xs x
    unfold outerEdges
    simp only
    split
    · rename_i e
      refine Or.inr ⟨xs.foldl min x, fun y hy => ?_, a1, rfl, by rw [e]⟩
      exact le_antisymm ((b2 y hy).trans e.ge) (a2 y hy)
    · rename_i e
      exact Or.inl ⟨lt_of_le_of_ne (a2 _ b1) e, a1, b1, fun y hy => ⟨a2 y hy, b2 y hy⟩⟩

theorem IsRange.lt {values : List ℝ} {lo hi : ℝ} (h : IsRange values lo hi) : lo < hi := by
  rcases h with h | ⟨v, -, -, rfl, rfl⟩
  · exact h.1
  · linarith

theorem IsRange.mem {values : List ℝ} {lo hi : ℝ} (h : IsRange values lo hi) {x : ℝ} (hx : x ∈ values) : lo ≤ x ∧ x ≤ hi := by
  rcases h with h | ⟨v, hv, -, rfl, rfl⟩
  · exact h.2.2.2 x hx
  · rw [hv x hx]; constructor <;> linarith

theorem filter_range_length (k m : Nat) : ((List.range m).filter fun i => decide (i < k)).length = min k m := by
  induction m with
  | zero => simp
  | succ m ih =>
    rw [List.range_succ, List.filter_append, List.length_append, ih]
    by_cases h : m < k
    · simp [h]; omega
    · simp [h]; omega

open Classical in
theorem place_iff (lo hi : ℝ) (n : Nat) (hn : n ≠ 0) (h : lo < hi) (x : ℝ) (h1 : lo ≤ x) (h2 : x ≤ hi) :
    ∃ i < n, place (linspace lo hi n) x = i + 1 ∧ ∀ j, InBin lo hi n j x ∧ j < n ↔ j = i := by
  have n0 : (0 : ℝ) < n := by exact_mod_cast Nat.pos_of_ne_zero hn
  have s0 : 0 < (hi - lo) / n := div_pos (by linarith) n0
  have key : ∀ i : Nat, lo + i * ((hi - lo) / n) ≤ x ↔ i < ⌊(x - lo) / ((hi - lo) / n)⌋₊ + 1 := by
    intro i
    rw [Nat.lt_succ_iff, Nat.le_floor_iff (div_nonneg (by linarith) s0.le), le_div_iff₀ s0]
    constructor <;> intro h <;> linarith
  have hs : searchRight (linspace lo hi n) x = min (⌊(x - lo) / ((hi - lo) / n)⌋₊ + 1) (n + 1) := by
    unfold searchRight linspace
    rw [List.filter_map, List.length_map, ← filter_range_length]
    congr 1
    apply List.filter_congr
    intro i _
    simp only [Function.comp]
    exact decide_eq_decide.2 (key i)
  have hlast : (linspace lo hi n).getLastD 0 = hi := by
    unfold linspace
    rw [List.range_succ, List.map_append]
    simp only [List.map_cons, List.map_nil, List.getLastD_concat]
    field_simp
    ring
  have full : lo + (n : ℝ) * ((hi - lo) / n) = hi := by field_simp; ring
  unfold place
  rw [hs, hlast]
  by_cases e : x = hi
  · have hf : n ≤ ⌊(x - lo) / ((hi - lo) / n)⌋₊ := by
      have := (key n).1 (by rw [full, e])
      omega
    refine ⟨n - 1, by omega, ?_, ?_⟩
    · rw [if_pos e]; omega
    · intro j
      unfold InBin
      constructor
      · rintro ⟨⟨-, hb | hb⟩, hj⟩
        · exfalso
          have : ((j + 1 : Nat) : ℝ) ≤ n := by exact_mod_cast hj
          push_cast at this
          have := mul_le_mul_of_nonneg_right this s0.le
          rw [e] at hb
          linarith
        · omega
      · intro hj
        have hj1 : j + 1 = n := by omega
        refine ⟨⟨(key j).2 (by omega), Or.inr ⟨hj1, e⟩⟩, by omega⟩
  · have hlt : x < hi := lt_of_le_of_ne h2 e
    have hf : ⌊(x - lo) / ((hi - lo) / n)⌋₊ < n := by
      by_contra hc
      have := (key n).2 (by omega)
      rw [full] at this
      linarith
    refine ⟨⌊(x - lo) / ((hi - lo) / n)⌋₊, hf, ?_, ?_⟩
    · rw [if_neg e]; omega
    · intro j
      unfold InBin
      have k1 := key j
      have k2 := key (j + 1)
      push_cast at k2
      constructor
      · rintro ⟨⟨ha, hb | hb⟩, hj⟩
        · have a := k1.1 ha
          have b : ¬ (j + 1 < ⌊(x - lo) / ((hi - lo) / n)⌋₊ + 1) := fun c => absurd (k2.2 c) (by linarith)
          omega
        · exact absurd hb.2 e
      · rintro rfl
        refine ⟨⟨k1.2 (by omega), Or.inl ?_⟩, hf⟩
        by_contra c
        have := k2.1 (by linarith)
        omega

/-! ### Indices -/

theorem ravel_lt (is ms : List Nat) (h : List.Forall₂ (· < ·) is ms) : ravel is ms < ms.prod := by
  induction h with
  | nil => simp [ravel]
  | @cons i m is ms h _ ih =>
    rw [ravel, List.prod_cons]
    calc i * ms.prod + ravel is ms < i * ms.prod + ms.prod := by omega
      _ = (i + 1) * ms.prod := by ring
      _ ≤ m * ms.prod := Nat.mul_le_mul_right _ h

theorem ravel_inj (is js ms : List Nat) (h : List.Forall₂ (· < ·) is ms) (h' : List.Forall₂ (· < ·) js ms) (e : ravel is ms = ravel js ms) : is = js := by
  induction h generalizing js with
  | nil => cases h'; rfl
  | @cons i m is ms h t ih =>
    cases h' with
    | @cons j _ js _ h1 t1 =>
      rw [ravel, ravel] at e
      have a := ravel_lt _ _ t
      have b := ravel_lt _ _ t1
      have hij : i = j := by
        have e1 : (ravel is ms + ms.prod * i) / ms.prod = i := by
          rw [Nat.add_mul_div_left _ _ (by omega), Nat.div_eq_of_lt a, Nat.zero_add]
        have e2 : (ravel js ms + ms.prod * j) / ms.prod = j := by
          rw [Nat.add_mul_div_left _ _ (by omega), Nat.div_eq_of_lt b, Nat.zero_add]
        rw [← e1, ← e2]
        congr 1
        rw [Nat.mul_comm ms.prod i, Nat.mul_comm ms.prod j]
        omega
      subst hij
      rw [ih js t1 (by omega)]

theorem foldr_max_eq (xy : List Nat) (m : Nat) (h : ∀ a ∈ xy, a < m) : xy.foldr (fun a b => max (a + 1) b) m = m := by
  induction xy with
  | nil => rfl
  | cons a xy ih =>
    rw [List.foldr_cons, ih fun b hb => h b (by simp [hb])]
    have := h a (by simp)
    omega

theorem filter_sum_ite {A : Type} (l : List A) (p : A → Bool) (f : A → ℝ) : ((l.filter p).map f).sum = (l.map fun a => if p a then f a else 0).sum := by
  induction l with
  | nil => rfl
  | cons a l ih =>
    rw [List.filter_cons]
    split <;> simp_all

/-! ### The histogram -/

open Classical in
/-- For a sample with rows of one length. -/
theorem histogramdd_spec (sample : List (List ℝ)) (d n : Nat) (w : List ℝ) (hs : sample ≠ []) (hd : ∀ r ∈ sample, r.length = d) (hw : w.length = sample.length) (hn : n ≠ 0) :
    ∃ H, histogramdd sample d n w = some H ∧ H.shape = List.replicate d n ∧ H.edges.length = d ∧
      ∃ lo hi : Nat → ℝ, (∀ j < d, IsRange (sample.map fun r => r.getD j 0) (lo j) (hi j) ∧
        H.edges.getD j [] = (List.range (n + 1)).map fun i : Nat => lo j + (i : ℝ) * ((hi j - lo j) / n)) ∧
      (∀ idx : List Nat, idx.length = d → (∀ i ∈ idx, i < n) →
        H.at_ idx = ((sample.zip w).map fun p => if ∀ j < d, InBin (lo j) (hi j) n (idx.getD j 0) (p.1.getD j 0) then p.2 else 0).sum) ∧
      (∀ r ∈ sample, ∃! idx : List Nat, idx.length = d ∧ (∀ i ∈ idx, i < n) ∧ ∀ j < d, InBin (lo j) (hi j) n (idx.getD j 0) (r.getD j 0)) := by
  let o : Nat → ℝ × ℝ := fun j => outerEdges (sample.map fun r => r.getD j 0)
  let edges := (List.range d).map fun j => linspace (o j).1 (o j).2 n
  have hr : ∀ j < d, IsRange (sample.map fun r => r.getD j 0) (o j).1 (o j).2 := fun j _ => outerEdges_range _ (by simpa using hs)
  have hel : ∀ j, (linspace (o j).1 (o j).2 n).length + 1 = n + 2 := by intro j; simp [linspace]
  let nbin := edges.map fun e => e.length + 1
  have hnb : nbin = List.replicate d (n + 2) := by
    simp only [nbin, edges, List.map_map]
    rw [List.eq_replicate_iff]
    refine ⟨by simp, ?_⟩
    intro b hb
    obtain ⟨j, -, rfl⟩ := List.mem_map.1 hb
    exact hel j
  -- the place of a row
  have hplace : ∀ r ∈ sample, ∃ q : List Nat, q.length = d ∧ (∀ i ∈ q, i < n) ∧ List.zipWith place edges r = q.map (· + 1) ∧
      ∀ idx : List Nat, idx.length = d → (∀ i ∈ idx, i < n) → ((∀ j < d, InBin (o j).1 (o j).2 n (idx.getD j 0) (r.getD j 0)) ↔ idx = q) := by
    intro r hrs
    have hrd := hd r hrs
    have each : ∀ j, ∃ i, j < d → i < n ∧ place (linspace (o j).1 (o j).2 n) (r.getD j 0) = i + 1 ∧ ∀ k, InBin (o j).1 (o j).2 n k (r.getD j 0) ∧ k < n ↔ k = i := by
      intro j
      by_cases hj : j < d
      · have hm : r.getD j 0 ∈ sample.map fun r => r.getD j 0 := List.mem_map.2 ⟨r, hrs, rfl⟩
        obtain ⟨i, hi, a, b⟩ := place_iff (o j).1 (o j).2 n hn (hr j hj).lt (r.getD j 0) ((hr j hj).mem hm).1 ((hr j hj).mem hm).2
        exact ⟨i, fun _ => ⟨hi, a, b⟩⟩
      · exact ⟨0, fun h => absurd h hj⟩
    choose f hf using each
    refine ⟨(List.range d).map f, by simp, ?_, ?_, ?_⟩
    · intro i hi
      obtain ⟨j, hj, rfl⟩ := List.mem_map.1 hi
      exact (hf j (List.mem_range.1 hj)).1
    · apply List.ext_getElem
      · simp [edges, hrd]
      · intro j h1 h2
        have hj : j < d := by simpa using h2
        have := (hf j hj).2.1
        rw [List.getD_eq_getElem _ _ (by omega)] at this
        simpa [edges] using this
    · intro idx hl hb
      constructor
      · intro h
        apply List.ext_getElem
        · simp [hl]
        · intro j h1 h2
          have hj : j < d := by omega
          have hbj := hb _ (List.getElem_mem h1)
          have hh := h j hj
          rw [List.getD_eq_getElem _ _ h1] at hh
          simpa using ((hf j hj).2.2 _).1 ⟨hh, hbj⟩
      · rintro rfl j hj
        have : ((List.range d).map f).getD j 0 = f j := by
          rw [List.getD_eq_getElem _ _ (by simpa using hj)]
          simp
        rw [this]
        exact (((hf j hj).2.2 (f j)).2 rfl).1
  have bound : ∀ q : List Nat, q.length = d → (∀ i ∈ q, i < n) → List.Forall₂ (· < ·) (q.map (· + 1)) nbin := by
    intro q hl hb
    rw [hnb, List.forall₂_iff_get]
    refine ⟨by simp [hl], ?_⟩
    intro i h1 h2
    have h3 : i < q.length := by simpa using h1
    have := hb q[i] (List.getElem_mem h3)
    simp
    omega
  let xy := sample.map fun r => ravel (List.zipWith place edges r) nbin
  have hxy : ∀ a ∈ xy, a < nbin.prod := by
    intro a ha
    obtain ⟨r, hrs, rfl⟩ := List.mem_map.1 ha
    obtain ⟨q, hl, hb, e, -⟩ := hplace r hrs
    rw [e]
    exact ravel_lt _ _ (bound q hl hb)
  have hbin : bincount xy w nbin.prod = some ((List.range nbin.prod).map fun b => (((xy.zip w).filter fun p => p.1 == b).map (·.2)).sum) := by
    unfold bincount
    rw [if_neg (by simp [xy, hw]), foldr_max_eq _ _ hxy]
  refine ⟨⟨List.replicate d n, fun idx => ((List.range nbin.prod).map fun b => (((xy.zip w).filter fun p => p.1 == b).map (·.2)).sum).getD (ravel (idx.map (· + 1)) nbin) 0, edges⟩,
    ?_, rfl, by simp [edges], fun j => (o j).1, fun j => (o j).2, ?_, ?_, ?_⟩
  · unfold histogramdd
    rw [if_neg hn]
    change (match bincount xy w nbin.prod with | none => none | some flat => _) = _
    rw [hbin]
    simp only [List.length_map, List.length_range]
    exact if_neg fun h => h rfl
  · intro j hj
    refine ⟨hr j hj, ?_⟩
    rw [List.getD_eq_getElem _ _ (by simpa [edges] using hj)]
    simp [edges, linspace]
  · intro idx hl hb
    have hlt := ravel_lt _ _ (bound idx hl hb)
    simp only
    rw [List.getD_eq_getElem _ _ (by simpa using hlt)]
    simp only [List.getElem_map, List.getElem_range]
    rw [filter_sum_ite, List.zip_map_left, List.map_map]
    congr 1
    apply List.map_congr_left
    intro p hp
    have hps := List.of_mem_zip hp
    obtain ⟨q, hql, hqb, e, hq⟩ := hplace p.1 hps.1
    have := hq idx hl hb
    simp only [Function.comp, Prod.map, id, beq_iff_eq]
    refine if_congr ?_ rfl rfl
    rw [this, e]
    constructor
    · intro h
      have := ravel_inj _ _ _ (bound q hql hqb) (bound idx hl hb) h
      exact (List.map_injective_iff.2 (fun a b h => by omega) this).symm
    · rintro rfl; rfl
  · intro r hrs
    obtain ⟨q, hl, hb, -, hq⟩ := hplace r hrs
    exact ⟨q, ⟨hl, hb, (hq q hl hb).2 rfl⟩, fun idx h => (hq idx h.1 h.2.1).1 h.2.2⟩

/-! ### The journal -/

theorem mem_sequences (n d : Nat) (idx : List Nat) : idx ∈ Chance.sequences (List.range n) d ↔ idx.length = d ∧ ∀ i ∈ idx, i < n := by
  induction d generalizing idx with
  | zero =>
    simp only [Chance.sequences, List.mem_singleton, List.length_eq_zero_iff]
    constructor
    · rintro rfl; simp
    · exact fun h => h.1
  | succ d ih =>
    simp only [Chance.sequences, List.mem_flatMap, List.mem_range, List.mem_map]
    constructor
    · rintro ⟨a, ha, l, hl, rfl⟩
      obtain ⟨h1, h2⟩ := (ih l).1 hl
      refine ⟨by simp [h1], ?_⟩
      intro i hi
      rcases List.mem_cons.1 hi with rfl | hi
      · exact ha
      · exact h2 i hi
    · rintro ⟨h1, h2⟩
      cases idx with
      | nil => simp at h1
      | cons a l => exact ⟨a, h2 a (by simp), l, (ih l).2 ⟨by simpa using h1, fun i hi => h2 i (by simp [hi])⟩, rfl⟩

theorem nodup_sequences (n d : Nat) : (Chance.sequences (List.range n) d).Nodup := by
  induction d with
  | zero => simp [Chance.sequences]
  | succ d ih =>
    rw [Chance.sequences, List.nodup_flatMap]
    refine ⟨fun a _ => ih.map (fun x y h => by simpa using h), ?_⟩
    refine List.Pairwise.imp ?_ (List.nodup_range (n := n))
    intro a b hab x hx hy
    obtain ⟨l, -, rfl⟩ := List.mem_map.1 hx
    obtain ⟨m, -, h⟩ := List.mem_map.1 hy
    exact hab (by injection h with h1; exact h1.symm)

theorem sum_once {A : Type} (S : List A) (hS : S.Nodup) (P : A → Prop) [DecidablePred P] (q : A) (hq : q ∈ S) (h : ∀ a ∈ S, P a ↔ a = q) (v : ℝ) :
    (S.map fun a => if P a then v else 0).sum = v := by
  induction S with
  | nil => simp at hq
  | cons b S ih =>
    rw [List.nodup_cons] at hS
    rw [List.map_cons, List.sum_cons]
    by_cases e : b = q
    · subst e
      rw [if_pos ((h b (by simp)).2 rfl)]
      have : (S.map fun a => if P a then v else 0) = S.map fun _ => 0 := by
        apply List.map_congr_left
        intro a ha
        rw [if_neg]
        intro hp
        exact hS.1 ((h a (by simp [ha])).1 hp ▸ ha)
      rw [this]
      simp
    · rw [if_neg fun hp => e ((h b (by simp)).1 hp), zero_add]
      exact ih hS.2 (by rcases List.mem_cons.1 hq with rfl | hq; exact absurd rfl e; exact hq) fun a ha => h a (by simp [ha])

theorem sum_swap {A B : Type} (S : List A) (T : List B) (f : A → B → ℝ) : (S.map fun a => (T.map fun b => f a b).sum).sum = (T.map fun b => (S.map fun a => f a b).sum).sum := by
  induction S with
  | nil => simp
  | cons a S ih =>
    simp only [List.map_cons, List.sum_cons, ih]
    rw [← List.sum_map_add]

open Classical in
/-- **C162.** For every stored step with one row per particle and parameter, at least one particle, one weight per particle and at least one bin, `posterior_histogram` returns an array with `n` bins in
each of the `d` directions and the `n + 1` equally spaced edges of each direction, from the smallest to the largest value. The entry of a cell is the total weight of the particles in it; every
particle is in exactly one cell; so the entries add up to the sum of all weights. -/
theorem C162_histogram (params : List (String × List (List ℝ))) (w : List ℝ) (d n : Nat) (hp : params ≠ []) (hr : ∀ q ∈ params, q.2.length = w.length) (h1 : 0 < w.length)
    (hd : ∀ k < w.length, (particle params k).length = d) (hn : n ≠ 0) :
    ∃ H, posteriorHistogram params w n = some H ∧ H.shape = List.replicate d n ∧ H.edges.length = d ∧
      ∃ lo hi : Nat → ℝ, (∀ j < d, IsRange ((List.range w.length).map fun k => (particle params k).getD j 0) (lo j) (hi j) ∧
        H.edges.getD j [] = (List.range (n + 1)).map fun i : Nat => lo j + (i : ℝ) * ((hi j - lo j) / n)) ∧
      (∀ idx : List Nat, idx.length = d → (∀ i ∈ idx, i < n) →
        H.at_ idx = ((List.range w.length).map fun k => if ∀ j < d, InBin (lo j) (hi j) n (idx.getD j 0) ((particle params k).getD j 0) then w.getD k 0 else 0).sum) ∧
      (∀ k < w.length, ∃! idx : List Nat, idx.length = d ∧ (∀ i ∈ idx, i < n) ∧ ∀ j < d, InBin (lo j) (hi j) n (idx.getD j 0) ((particle params k).getD j 0)) ∧
      ((Chance.sequences (List.range n) d).map H.at_).sum = w.sum := by
  let sample := (List.range w.length).map fun k => particle params k
  have hzip : sample.zip w = (List.range w.length).map fun k => (particle params k, w.getD k 0) := by
    apply List.ext_getElem
    · simp [sample]
    · intro i a b
      have hi : i < w.length := by simpa using b
      simp [sample, hi]
  obtain ⟨H, e, hsh, hel, lo, hi, hedge, hat, hone⟩ := histogramdd_spec sample d n w (by simp [sample]; intro h; simp [h] at h1)
    (by intro r hr; obtain ⟨k, hk, rfl⟩ := List.mem_map.1 hr; exact hd k (List.mem_range.1 hk)) (by simp [sample]) hn
  have hone' : ∀ k < w.length, ∃! idx : List Nat, idx.length = d ∧ (∀ i ∈ idx, i < n) ∧ ∀ j < d, InBin (lo j) (hi j) n (idx.getD j 0) ((particle params k).getD j 0) :=
    fun k hk => hone _ (List.mem_map.2 ⟨k, List.mem_range.2 hk, rfl⟩)
  have hat' : ∀ idx : List Nat, idx.length = d → (∀ i ∈ idx, i < n) →
      H.at_ idx = ((List.range w.length).map fun k => if ∀ j < d, InBin (lo j) (hi j) n (idx.getD j 0) ((particle params k).getD j 0) then w.getD k 0 else 0).sum := by
    intro idx a b
    rw [hat idx a b, hzip, List.map_map]
    rfl
  refine ⟨H, ?_, hsh, hel, lo, hi, ?_, hat', hone', ?_⟩
  · cases params with
    | nil => exact absurd rfl hp
    | cons p rest =>
      unfold posteriorHistogram
      simp only
      rw [if_pos]
      · have : ((List.range p.2.length).map fun k => ((p :: rest).map fun q => q.2.getD k []).flatten) = sample := by
          rw [hr p (by simp)]
          rfl
        rw [this]
        have hs : ∀ r ∈ sample, r.length = d := by
          intro r hr; obtain ⟨k, hk, rfl⟩ := List.mem_map.1 hr; exact hd k (List.mem_range.1 hk)
        have hne : sample ≠ [] := by simp [sample]; intro h; simp [h] at h1
        clear_value sample
        cases sample with
        | nil => exact absurd rfl hne
        | cons row rows =>
          simp only
          rw [if_pos, hs row (by simp), e]
          rw [List.all_eq_true]
          intro r hr'
          rw [hs row (by simp), hs r (by simp [hr'])]
          simp
      · rw [List.all_eq_true]
        intro q hq
        simp [hr q (by simp [hq]), hr p (by simp)]
  · intro j hj
    have := hedge j hj
    rw [List.map_map] at this
    exact this
  · have : (Chance.sequences (List.range n) d).map H.at_ = (Chance.sequences (List.range n) d).map fun idx =>
        ((List.range w.length).map fun k => if ∀ j < d, InBin (lo j) (hi j) n (idx.getD j 0) ((particle params k).getD j 0) then w.getD k 0 else 0).sum := by
      apply List.map_congr_left
      intro idx hidx
      obtain ⟨a, b⟩ := (mem_sequences n d idx).1 hidx
      exact hat' idx a b
    rw [this, sum_swap]
    have : ∀ k ∈ List.range w.length, ((Chance.sequences (List.range n) d).map fun idx =>
        if ∀ j < d, InBin (lo j) (hi j) n (idx.getD j 0) ((particle params k).getD j 0) then w.getD k 0 else 0).sum = w.getD k 0 := by
      intro k hk
      obtain ⟨q, ⟨q1, q2, q3⟩, hu⟩ := hone' k (List.mem_range.1 hk)
      refine sum_once _ (nodup_sequences n d) _ q ((mem_sequences n d q).2 ⟨q1, q2⟩) ?_ _
      intro idx hidx
      obtain ⟨a, b⟩ := (mem_sequences n d idx).1 hidx
      constructor
      · intro h; exact hu idx ⟨a, b, h⟩
      · rintro rfl; exact q3
    rw [List.map_congr_left this]
    congr 1
    apply List.ext_getElem
    · simp
    · intro i a b
      simp [b]

/-- Three particles in two bins: the value on the inner edge counts for the right bin, the largest value for the last one. -/
example : ∃ H, posteriorHistogram [("a", [[0], [1], [2]])] [1 / 2, 1 / 4, 1 / 8] 2 = some H ∧ H.at_ [0] = 1 / 2 ∧ H.at_ [1] = 3 / 8 := by
  obtain ⟨H, e, -, -, lo, hi, hr, hat, -, -⟩ := C162_histogram [("a", [[0], [1], [2]])] [1 / 2, 1 / 4, 1 / 8] 1 2 (by simp) (by simp) (by simp)
    (by intro k hk; simp at hk; interval_cases k <;> simp [particle]) (by simp)
  have h := (hr 0 (by simp)).1
  have hv : (List.range ([1 / 2, 1 / 4, 1 / 8] : List ℝ).length).map (fun k => (particle [("a", [[0], [1], [2]])] k).getD 0 0) = [0, 1, 2] := by
    simp [List.range_succ, particle]
  rw [hv] at h
  have hlh : lo 0 = 0 ∧ hi 0 = 2 := by
    rcases h with ⟨-, a, b, c⟩ | ⟨v, hv, -⟩
    · have c0 := c 0 (by simp)
      have c2 := c 2 (by simp)
      simp only [List.mem_cons, List.not_mem_nil, or_false] at a b
      rcases a with a | a | a <;> rcases b with b | b | b <;> constructor <;> linarith
    · have := hv 0 (by simp)
      have := hv 1 (by simp)
      linarith
  refine ⟨H, e, ?_, ?_⟩
  · rw [hat [0] rfl (by simp)]
    norm_num [List.range_succ, particle, InBin, hlh]
  · rw [hat [1] rfl (by simp)]
    norm_num [List.range_succ, particle, InBin, hlh]

end Verif.Journal
