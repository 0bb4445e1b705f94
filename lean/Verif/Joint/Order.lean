import Verif.Joint.Props
/-
C221 for combined distances and likelihoods: models, observations, simulations, distances and weights are put into another order together.
-/
namespace Verif.Joint

variable {D : Type}

/-! ### Specification -/

/-- What belongs to one observed model: its distance, its weight, and the two data sets that are compared. -/
structure Part (D : Type) where
  dist : Dist D
  weight : ℝ
  first : D
  second : D

/-- The combined distance of the parts in this order, with the given weights. -/
noncomputable def combined (l : List (Part D)) : Option ℝ := (new l.length (l.map Part.dist) (some (l.map Part.weight))).bind fun c => c.distance (l.map Part.first) (l.map Part.second)

/-- The same without weights. -/
noncomputable def unweighted (l : List (Part D)) : Option ℝ := (new l.length (l.map Part.dist) none).bind fun c => c.distance (l.map Part.first) (l.map Part.second)

/-- The maximum that the combination declares. -/
noncomputable def declared (l : List (Part D)) : Option EReal := (new l.length (l.map Part.dist) (some (l.map Part.weight))).bind Combination.distMax

/-! ### Proofs -/

theorem collect_perm {A : Type} {l l' : List (Option A)} (h : l.Perm l') {r : List A} (hr : collect l = some r) : ∃ r', collect l' = some r' ∧ r.Perm r' := by
  cases hc : collect l' with
  | none =>
    rw [collect_eq_none] at hc
    have hn := (collect_eq_none l).2 (h.mem_iff.2 hc)
    rw [hr] at hn
    cases hn
  | some r' =>
    rw [collect_eq_some] at hc hr
    rw [hc, hr] at h
    exact ⟨r', rfl, (List.map_perm_map_iff (Option.some_injective A)).1 h⟩

theorem collect_perm_map {A B : Type} {l l' : List (Option A)} (h : l.Perm l') (f : List A → B) (hf : ∀ a b : List A, a.Perm b → f a = f b) : (collect l).map f = (collect l').map f := by
  cases hr : collect l with
  | none =>
    rw [(collect_eq_none l').2 (h.mem_iff.1 ((collect_eq_none l).1 hr))]
  | some r =>
    obtain ⟨r', h1, h2⟩ := collect_perm h hr
    rw [h1]
    exact congrArg some (hf _ _ h2)

theorem terms_map (l : List (Part D)) (w : Part D → ℝ) :
    terms (l.map w) (l.map Part.dist) (l.map Part.first) (l.map Part.second) = l.map fun p => (p.dist.distance p.first p.second).map (w p * ·) := by
  induction l with
  | nil => rfl
  | cons p l ih => simp only [List.map_cons, terms, ih]

/-- C221: the combined distance does not depend on the order of the models, with and without weights; it raises in one order exactly if it does in the other. -/
theorem C221_distance (l l' : List (Part D)) (h : l.Perm l') : combined l = combined l' ∧ unweighted l = unweighted l' := by
  have hs : (l.map Part.weight).sum = (l'.map Part.weight).sum := (h.map _).sum_eq
  have hl := h.length_eq
  constructor
  · unfold combined new
    simp only [List.length_map, ne_eq, not_true_eq_false, if_false, hs]
    split_ifs with h0
    · rfl
    · simp only [Option.bind_some, Combination.distance, List.length_map, ne_eq, not_true_eq_false, if_false]
      rw [show (l.map Part.weight).map (· / (l'.map Part.weight).sum) = l.map fun p => p.weight / (l'.map Part.weight).sum by rw [List.map_map]; rfl,
        show (l'.map Part.weight).map (· / (l'.map Part.weight).sum) = l'.map fun p => p.weight / (l'.map Part.weight).sum by rw [List.map_map]; rfl, terms_map, terms_map]
      exact collect_perm_map (h.map _) _ fun a b hab => hab.sum_eq
  · unfold unweighted new
    simp only [List.length_map, ne_eq, not_true_eq_false, if_false, Option.bind_some, Combination.distance]
    rw [show List.replicate l.length (1 / (l.length : ℝ)) = l.map fun _ => 1 / (l.length : ℝ) by simp, show List.replicate l'.length (1 / (l'.length : ℝ)) = l'.map fun _ => 1 / (l.length : ℝ) by simp [hl],
      terms_map, terms_map]
    exact collect_perm_map (h.map _) _ fun a b hab => hab.sum_eq

theorem zipWith_parts {A : Type} (l : List (Part D)) (w : Part D → ℝ) (f : ℝ → Dist D → A) : List.zipWith f (l.map w) (l.map Part.dist) = l.map fun p => f (w p) p.dist := by
  induction l with
  | nil => rfl
  | cons p l ih => simp only [List.map_cons, List.zipWith_cons_cons, ih]

/-- C221: neither does the declared maximum. -/
theorem C221_maximum (l l' : List (Part D)) (h : l.Perm l') : declared l = declared l' := by
  have hs : (l.map Part.weight).sum = (l'.map Part.weight).sum := (h.map _).sum_eq
  unfold declared new
  simp only [List.length_map, ne_eq, not_true_eq_false, if_false, hs]
  split_ifs with h0
  · rfl
  · simp only [Option.bind_some, Combination.distMax]
    rw [show (l.map Part.weight).map (· / (l'.map Part.weight).sum) = l.map fun p => p.weight / (l'.map Part.weight).sum by rw [List.map_map]; rfl,
      show (l'.map Part.weight).map (· / (l'.map Part.weight).sum) = l'.map fun p => p.weight / (l'.map Part.weight).sum by rw [List.map_map]; rfl, zipWith_parts, zipWith_parts]
    have hp := h.map fun p => maxTerm (p.weight / (l'.map Part.weight).sum) p.dist.distMax
    cases hr : collect (l.map fun p => maxTerm (p.weight / (l'.map Part.weight).sum) p.dist.distMax) with
    | none =>
      rw [(collect_eq_none _).2 (hp.mem_iff.1 ((collect_eq_none _).1 hr))]
    | some r =>
      obtain ⟨r', h1, h2⟩ := collect_perm hp hr
      rw [h1]
      simp only [h2.mem_iff, h2.sum_eq]

theorem values_map (f : Lhd D → D → D → Option ℝ) (l : List (Lhd D × D × D)) :
    values f (l.map Prod.fst) (l.map fun p => p.2.1) (l.map fun p => p.2.2) = l.map fun p => f p.1 p.2.1 p.2.2 := by
  induction l with
  | nil => rfl
  | cons p l ih => simp only [List.map_cons, values, ih]

/-- C221: the combined likelihoods do not depend on the order of the models. -/
theorem C221_likelihood (l l' : List (Lhd D × D × D)) (h : l.Perm l') :
    sumLoglikelihood (l.map Prod.fst) (l.map fun p => p.2.1) (l.map fun p => p.2.2) = sumLoglikelihood (l'.map Prod.fst) (l'.map fun p => p.2.1) (l'.map fun p => p.2.2) ∧
    productLikelihood (l.map Prod.fst) (l.map fun p => p.2.1) (l.map fun p => p.2.2) = productLikelihood (l'.map Prod.fst) (l'.map fun p => p.2.1) (l'.map fun p => p.2.2) := by
  unfold sumLoglikelihood productLikelihood
  simp only [List.length_map, ne_eq, not_true_eq_false, if_false, values_map]
  exact ⟨collect_perm_map (h.map _) _ fun a b hab => by rw [foldl_add, foldl_add, hab.sum_eq], collect_perm_map (h.map _) _ fun a b hab => by rw [foldl_mul, foldl_mul, hab.prod_eq]⟩

/-! ### Two distances -/

/-- Weights 1 and 3 on the distances of numbers and of signs: 1/4 * 2 + 3/4 * 1 in both orders. -/
noncomputable def twoParts : List (Part ℝ) := [⟨⟨fun x y => some |x - y|, ⊤⟩, 1, 5, 3⟩, ⟨⟨fun _ _ => some 1, 1⟩, 3, 0, 0⟩]

example : combined twoParts = some (5 / 4) ∧ combined twoParts.reverse = some (5 / 4) := by
  have h : combined twoParts = some (5 / 4) := by
    norm_num [combined, twoParts, new, Combination.distance, terms, collect]
  exact ⟨h, by rw [(C221_distance _ _ (List.reverse_perm twoParts)).1, h]⟩

example : declared twoParts.reverse = declared twoParts := C221_maximum _ _ (List.reverse_perm twoParts)

/-- What has to be reordered together: exchanging the weights only changes the distance to 7/4. -/
example : combined [(⟨⟨fun x y => some |x - y|, ⊤⟩, 3, 5, 3⟩ : Part ℝ), ⟨⟨fun _ _ => some 1, 1⟩, 1, 0, 0⟩] = some (7 / 4) := by
  norm_num [combined, new, Combination.distance, terms, collect]

end Verif.Joint
