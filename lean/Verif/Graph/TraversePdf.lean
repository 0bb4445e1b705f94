import Verif.Graph.TraverseMap
import Mathlib.Algebra.BigOperators.Group.List.Basic
/-
Value of the recursion behind `pdf_of_prior`.
-/
namespace Verif.Graph

variable {α : Type} (g : G) {M : Type} [CommMonoid M]

abbrev isCont (g : G) (v : Nat) : Bool := decide (g.kind v = .cont)
abbrev isDisc (g : G) (v : Nat) : Bool := decide (g.kind v = .disc)

/-- Product of `d` over a list. -/
def prodOver (d : Nat → M) (l : List Nat) : M := (l.map d).prod

omit [CommMonoid M] in
theorem prodOver_append [CommMonoid M] (d : Nat → M) (a b) : prodOver d (a ++ b) = prodOver d a * prodOver d b := by
  simp [prodOver]

@[simp] theorem prodOver_nil (d : Nat → M) : prodOver d [] = 1 := rfl
@[simp] theorem prodOver_cons (d : Nat → M) (a b) : prodOver d (a :: b) = d a * prodOver d b := by simp [prodOver]

/-- The factor the recursion contributes for the occurrences `l`, given the memo flags. -/
def pdfVal (d : Nat → M) (memo : Nat → Bool) (l : List Nat) : M :=
  prodOver d (fresh memo (l.filter (isCont g))) * prodOver d (l.filter (isDisc g))

theorem pdfVal_append (d : Nat → M) (memo a b) :
    pdfVal g d memo (a ++ b) = pdfVal g d memo a * pdfVal g d (plus memo (a.filter (isCont g))) b := by
  simp only [pdfVal, List.filter_append, fresh_append, prodOver_append]
  ac_rfl

theorem pdfLoop (dens : (Nat → Option α) → Nat → Option α → M) (m : List (Nat × Nat)) (ps : List α) (n : Nat)
    (val : Nat → Option α)
    (node : ∀ p < n, ∀ s : St α, s.value = val → (∀ v ∈ unfold g p, g.kind v = .disc → s.memo v = false) →
      pdfNode g dens m ps p s = ({ s with memo := plus s.memo ((unfold g p).filter (isCont g)) },
        pdfVal g (fun v => dens val v ((mapIndex m v).bind fun i => ps[i]?)) s.memo (unfold g p))) :
    ∀ (l : List Nat), (∀ p ∈ l, p < n) → ∀ (s : St α) (r : M), s.value = val →
      (∀ v ∈ l.flatMap (unfold g), g.kind v = .disc → s.memo v = false) →
      l.foldl (fun (x : St α × M) p => ((pdfNode g dens m ps p x.1).1, x.2 * (pdfNode g dens m ps p x.1).2)) (s, r) =
      ({ s with memo := plus s.memo ((l.flatMap (unfold g)).filter (isCont g)) },
        r * pdfVal g (fun v => dens val v ((mapIndex m v).bind fun i => ps[i]?)) s.memo (l.flatMap (unfold g))) := by
  intro l
  induction l with
  | nil => intro _ s r _ _; simp [pdfVal, fresh]
  | cons p l ih =>
    intro hl s r hs hd
    rw [List.flatMap_cons] at hd
    have hd' : ∀ v ∈ l.flatMap (unfold g), g.kind v = .disc →
        plus s.memo ((unfold g p).filter (isCont g)) v = false := by
      intro v hm hv
      simp [plus, hd v (List.mem_append_right _ hm) hv, isCont, hv]
    rw [List.foldl_cons]
    simp only [node p (hl p (by simp)) s hs (fun v hm => hd v (List.mem_append_left _ hm))]
    rw [ih (fun q hq => hl q (by simp [hq])) { s with memo := plus s.memo ((unfold g p).filter (isCont g)) } _ hs hd']
    rw [List.flatMap_cons, List.filter_append, plus_append, pdfVal_append]
    simp [mul_assoc]

theorem pdfNode_eq (dens : (Nat → Option α) → Nat → Option α → M) (m : List (Nat × Nat)) (ps : List α)
    (val : Nat → Option α) (v : Nat) (s : St α) (hs : s.value = val)
    (hd : ∀ w ∈ unfold g v, g.kind w = .disc → s.memo w = false) :
    pdfNode g dens m ps v s = ({ s with memo := plus s.memo ((unfold g v).filter (isCont g)) },
        pdfVal g (fun v => dens val v ((mapIndex m v).bind fun i => ps[i]?)) s.memo (unfold g v)) := by
  induction v using Nat.strong_induction_on generalizing s with
  | _ v ih =>
    have hloop := pdfLoop g dens m ps v val (fun p hp s h1 h2 => ih p hp s h1 h2) (g.parents v)
      (fun p hp => g.lt_of_parent hp) s 1 hs (fun w hw => hd w (by
        rw [unfold_eq]; exact List.mem_cons_of_mem _ hw))
    rw [pdfNode]
    rw [show (forMem (g.parents v) (fun p _ (x : St α × M) =>
          match x with
          | (s, r) =>
            match pdfNode g dens m ps p s with
            | (s', d) => (s', r * d)) (s, (1 : M))) = _ from
          forMem_eq_foldl (g.parents v) (fun p (x : St α × M) =>
            ((pdfNode g dens m ps p x.1).1, x.2 * (pdfNode g dens m ps p x.1).2)) _]
    rw [hloop]
    have hnm := not_mem_flatMap_parents g v
    simp only [one_mul]
    have hpl : plus s.memo (((g.parents v).flatMap (unfold g)).filter (isCont g)) v = s.memo v := by
      have : v ∉ ((g.parents v).flatMap (unfold g)).filter (isCont g) := fun h => hnm (List.mem_filter.1 h).1
      simp only [plus, List.contains_eq_mem, this]; simp
    simp only [hpl]
    have hmem' : v ∉ ((g.parents v).flatMap (unfold g)).filter (isCont g) := fun h => hnm (List.mem_filter.1 h).1
    cases hm : s.memo v with
    | true =>
      have hnd : g.kind v ≠ .disc := fun h => by simp [hd v (mem_unfold_self g v) h] at hm
      simp only [if_true, mul_one, Prod.mk.injEq]
      constructor
      · apply St.ext'
        · rfl
        · simp only
          rw [unfold_eq, List.filter_cons]
          by_cases hc : g.kind v = .cont
          · simp only [isCont, hc, decide_true, if_true, plus_cons]
            congr 1
            funext y
            by_cases hy : y = v
            · simp [hy, hm]
            · simp [hy]
          · simp [isCont, hc]
        · rfl
      · rw [unfold_eq]
        simp only [pdfVal, List.filter_cons, isDisc, hnd, decide_false, Bool.false_eq_true, if_false]
        by_cases hc : g.kind v = .cont
        · simp [isCont, hc, fresh, hm]
        · simp [isCont, hc]
    | false =>
      simp only [Bool.false_eq_true, if_false, hs]
      cases hk : g.kind v with
      | op =>
        simp only [mul_one, Prod.mk.injEq]
        constructor
        · apply St.ext'
          · rfl
          · simp only [unfold_eq g v, List.filter_cons]; simp [isCont, hk]
          · rfl
        · simp only [unfold_eq g v, pdfVal, List.filter_cons, isCont, isDisc, hk]; simp
      | hyper =>
        simp only [mul_one, Prod.mk.injEq]
        constructor
        · apply St.ext'
          · rfl
          · simp only [unfold_eq g v, List.filter_cons]; simp [isCont, hk]
          · rfl
        · simp only [unfold_eq g v, pdfVal, List.filter_cons, isCont, isDisc, hk]; simp
      | disc =>
        simp only [Prod.mk.injEq]
        constructor
        · apply St.ext'
          · rfl
          · simp only [unfold_eq g v, List.filter_cons]; simp [isCont, hk]
          · rfl
        · simp only [unfold_eq g v, pdfVal, List.filter_cons, isCont, isDisc, hk]
          simp
          ac_rfl
      | cont =>
        simp only [Prod.mk.injEq]
        constructor
        · apply St.ext'
          · rfl
          · simp only [setMemo, unfold_eq g v, List.filter_cons]
            simp only [isCont, hk, decide_true, if_true, plus_cons]
            rw [mark_plus_comm]
          · rfl
        · simp only [unfold_eq g v, pdfVal, List.filter_cons, isCont, isDisc, hk]
          simp only [decide_true, if_true, fresh, hm, Bool.false_eq_true, if_false, prodOver_cons]
          rw [fresh_skip_self hmem']
          simp
          ac_rfl

theorem pdfRoots_eq (dens : (Nat → Option α) → Nat → Option α → M) (m : List (Nat × Nat)) (ps : List α)
    (val : Nat → Option α) (roots : List Nat) (s : St α) (acc : M) (hs : s.value = val)
    (hd : ∀ v ∈ above g roots, g.kind v = .disc → s.memo v = false) :
    roots.foldl (fun (x : St α × M) r => ((pdfRoot g dens m ps r x.1).1, x.2 * (pdfRoot g dens m ps r x.1).2)) (s, acc) =
      ({ s with memo := plus s.memo ((above g roots).filter (isCont g)) },
        acc * pdfVal g (fun v => dens val v ((mapIndex m v).bind fun i => ps[i]?)) s.memo (above g roots)) := by
  induction roots generalizing s acc with
  | nil => simp [above, pdfVal, fresh]
  | cons r l ih =>
    have ha : above g (r :: l) = (g.parents r).flatMap (unfold g) ++ above g l := rfl
    rw [ha] at hd
    have hr : pdfRoot g dens m ps r s = ({ s with memo := plus s.memo (((g.parents r).flatMap (unfold g)).filter (isCont g)) },
        pdfVal g (fun v => dens val v ((mapIndex m v).bind fun i => ps[i]?)) s.memo ((g.parents r).flatMap (unfold g))) := by
      have := pdfLoop g dens m ps r val (fun p _ s h1 h2 => pdfNode_eq g dens m ps val p s h1 h2) (g.parents r)
        (fun p hp => g.lt_of_parent hp) s 1 hs (fun v hm => hd v (List.mem_append_left _ hm))
      rw [pdfRoot]
      rw [show (forMem (g.parents r) (fun p _ (x : St α × M) =>
          match x with
          | (s, r) =>
            match pdfNode g dens m ps p s with
            | (s', d) => (s', r * d)) (s, (1 : M))) = _ from
          forMem_eq_foldl (g.parents r) (fun p (x : St α × M) =>
            ((pdfNode g dens m ps p x.1).1, x.2 * (pdfNode g dens m ps p x.1).2)) _]
      rw [this, one_mul]
    have hd' : ∀ v ∈ above g l, g.kind v = .disc →
        plus s.memo (((g.parents r).flatMap (unfold g)).filter (isCont g)) v = false := by
      intro v hm hv
      simp [plus, hd v (List.mem_append_right _ hm) hv, isCont, hv]
    rw [List.foldl_cons]
    simp only [hr]
    rw [ih { s with memo := plus s.memo (((g.parents r).flatMap (unfold g)).filter (isCont g)) } _ hs hd', ha, List.filter_append, plus_append, pdfVal_append]
    simp [mul_assoc]

theorem mapIndex_zipIdx (l : List Nat) (k v : Nat) :
    mapIndex (l.zipIdx k) v = if v ∈ l then some (k + l.idxOf v) else none := by
  induction l generalizing k with
  | nil => simp [mapIndex]
  | cons x l ih =>
    simp only [List.zipIdx_cons, mapIndex, ih]
    by_cases h : x = v
    · simp [h]
    · have h' : ¬ v = x := fun e => h e.symm
      simp only [h, if_false, List.mem_cons, h', false_or]
      by_cases hm : v ∈ l
      · simp [hm, h, Nat.add_assoc, Nat.add_comm 1]
      · simp [hm]

end Verif.Graph
