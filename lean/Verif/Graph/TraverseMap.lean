import Verif.Graph.TraverseSet
/-
`_get_mapping`, the manager's `get_mapping` and `get_correct_ordering` follow the order of the specification.
-/
namespace Verif.Graph

variable {α : Type} (g : G)

theorem frees_append_kNH (vis a b) : frees g vis (a ++ b) =
    frees g vis a ++ frees g (plus vis (a.filter (kNH g))) b := by
  simp only [frees]
  rw [fresh_append, List.filter_append]
  congr 1
  rw [fresh_filter, fresh_filter]
  refine fresh_congr fun x hx => ?_
  rw [List.mem_filter] at hx
  simp only [plus, List.contains_eq_mem, List.mem_filter]
  have : kNH g x = true := by cases hkx : g.kind x <;> simp_all [Kind.isFree]
  simp [this]

theorem frees_append (vis a b) : frees g vis (a ++ b) = frees g vis a ++ frees g (plus vis a) b := by
  simp [frees, fresh_append]

theorem frees_congr {vis vis' : Nat → Bool} {l} (h : ∀ x ∈ l, vis x = vis' x) : frees g vis l = frees g vis' l := by
  simp only [frees]; rw [fresh_congr h]

theorem frees_nil_of_visited {vis : Nat → Bool} {l} (h : ∀ x ∈ l.filter (kNH g), vis x = true) :
    frees g vis l = [] := by
  simp only [frees]
  rw [fresh_filter]
  refine fresh_eq_nil fun x hx => ?_
  rw [List.mem_filter] at hx
  refine h x (List.mem_filter.2 ⟨hx.1, ?_⟩)
  cases hkx : g.kind x <;> simp_all [Kind.isFree]

theorem mark_eq_self {s : St α} {v} (h : s.visited v = true) : mark s v = s := by
  apply St.ext'
  · funext y; simp only [mark_visited]
    by_cases hy : y = v
    · simp [hy, h]
    · simp [hy]
  · rfl
  · rfl

/-! ### `_get_mapping` -/

theorem mapLoop (n : Nat)
    (node : ∀ p < n, ∀ (s : St α) (i : Nat),
      mapNode g p s i = ({ s with visited := plus s.visited (unfold g p) },
        (frees g s.visited (unfold g p)).zipIdx i, i + (frees g s.visited (unfold g p)).length)) :
    ∀ (l : List Nat), (∀ p ∈ l, p < n) → ∀ (s : St α) (m : List (Nat × Nat)) (i : Nat),
      l.foldl (fun (x : St α × List (Nat × Nat) × Nat) p =>
        (mark (mapNode g p x.1 x.2.2).1 p, x.2.1 ++ (mapNode g p x.1 x.2.2).2.1, (mapNode g p x.1 x.2.2).2.2))
        (s, m, i) =
      ({ s with visited := plus s.visited (l.flatMap (unfold g)) },
        m ++ (frees g s.visited (l.flatMap (unfold g))).zipIdx i,
        i + (frees g s.visited (l.flatMap (unfold g))).length) := by
  intro l
  induction l with
  | nil => intro _ s m i; simp [frees, fresh]
  | cons p l ih =>
    intro hl s m i
    have hp : p < n := hl p (by simp)
    rw [List.foldl_cons]
    simp only [node p hp]
    rw [mark_eq_self (by
      simp only [plus, List.contains_eq_mem, mem_unfold_self g p, decide_true, Bool.true_or])]
    rw [ih (fun q hq => hl q (by simp [hq]))]
    rw [List.flatMap_cons, plus_append, frees_append, List.zipIdx_append]
    simp [Nat.add_assoc]

theorem mapNode_eq (v : Nat) (s : St α) (i : Nat) :
    mapNode g v s i = ({ s with visited := plus s.visited (unfold g v) },
        (frees g s.visited (unfold g v)).zipIdx i, i + (frees g s.visited (unfold g v)).length) := by
  induction v using Nat.strong_induction_on generalizing s i with
  | _ v ih =>
    have hloop := mapLoop g v ih (g.parents v) (fun p hp => g.lt_of_parent hp)
    have hg : mapNode g v s i =
      (let x := (g.parents v).foldl (fun (x : St α × List (Nat × Nat) × Nat) p =>
        (mark (mapNode g p x.1 x.2.2).1 p, x.2.1 ++ (mapNode g p x.1 x.2.2).2.1, (mapNode g p x.1 x.2.2).2.2))
        (if !s.visited v && (g.kind v).isFree then (s, [(v, i)], i + 1) else (s, [], i))
       (mark x.1 v, x.2.1, x.2.2)) := by
      rw [mapNode]
      rw [show (forMem (g.parents v) (fun p _ (x : St α × List (Nat × Nat) × Nat) =>
          match x with
          | (s, m, idx) =>
            match mapNode g p s idx with
            | (s', m', idx') => (mark s' p, m ++ m', idx'))
          (if !s.visited v && (g.kind v).isFree then (s, [(v, i)], i + 1) else (s, [], i))) =
          (g.parents v).foldl (fun (x : St α × List (Nat × Nat) × Nat) p =>
        (mark (mapNode g p x.1 x.2.2).1 p, x.2.1 ++ (mapNode g p x.1 x.2.2).2.1, (mapNode g p x.1 x.2.2).2.2))
        (if !s.visited v && (g.kind v).isFree then (s, [(v, i)], i + 1) else (s, [], i)) from
          forMem_eq_foldl (g.parents v) _ _]
    rw [hg]
    have hnm := not_mem_flatMap_parents g v
    have hvis : (mark { s with visited := plus s.visited ((g.parents v).flatMap (unfold g)) } v) =
        { s with visited := plus s.visited (unfold g v) } := by
      apply St.ext'
      · simp only [mark_visited]
        rw [mark_plus_comm, unfold_eq, plus_cons]
      · rfl
      · rfl
    cases hv : s.visited v with
    | true =>
      simp only [Bool.not_true, Bool.false_and, Bool.false_eq_true, if_false]
      rw [hloop s [] i]
      simp only [hvis]
      rw [unfold_eq]
      simp [frees, fresh, hv]
    | false =>
      cases hf : (g.kind v).isFree with
      | true =>
        simp only [Bool.not_false, Bool.and_self, if_true]
        rw [hloop s _ _]
        simp only [hvis]
        have e : frees g s.visited (unfold g v) = v :: frees g s.visited ((g.parents v).flatMap (unfold g)) := by
          rw [unfold_eq]
          simp [frees, fresh, hv, hf, fresh_skip_self hnm]
        rw [e]
        simp [Nat.add_assoc, Nat.add_comm 1]
      | false =>
        simp only [Bool.and_false, Bool.false_eq_true, if_false]
        rw [hloop s _ _]
        simp only [hvis]
        have e : frees g s.visited (unfold g v) = frees g s.visited ((g.parents v).flatMap (unfold g)) := by
          rw [unfold_eq]
          simp [frees, fresh, hv, hf, fresh_skip_self hnm]
        rw [e]
        simp

theorem mapRoot_eq (r : Nat) (s : St α) (m : List (Nat × Nat)) (i : Nat) :
    mapRoot g r s m i = ({ s with visited := plus s.visited (unfold g r) },
        m ++ (frees g s.visited ((g.parents r).flatMap (unfold g))).zipIdx i,
        i + (frees g s.visited ((g.parents r).flatMap (unfold g))).length) := by
  have hloop := mapLoop g r (fun p _ => mapNode_eq g p) (g.parents r) (fun p hp => g.lt_of_parent hp) s m i
  have hg : mapRoot g r s m i =
      (let x := (g.parents r).foldl (fun (x : St α × List (Nat × Nat) × Nat) p =>
        (mark (mapNode g p x.1 x.2.2).1 p, x.2.1 ++ (mapNode g p x.1 x.2.2).2.1, (mapNode g p x.1 x.2.2).2.2))
        (s, m, i)
       (mark x.1 r, x.2.1, x.2.2)) := by
      rw [mapRoot]
      rw [show (forMem (g.parents r) (fun p _ (x : St α × List (Nat × Nat) × Nat) =>
          match x with
          | (s, m, idx) =>
            match mapNode g p s idx with
            | (s', m', idx') => (mark s' p, m ++ m', idx'))
          (s, m, i)) = _ from
          forMem_eq_foldl (g.parents r) (fun p (x : St α × List (Nat × Nat) × Nat) =>
        (mark (mapNode g p x.1 x.2.2).1 p, x.2.1 ++ (mapNode g p x.1 x.2.2).2.1, (mapNode g p x.1 x.2.2).2.2)) _]
  rw [hg, hloop]
  simp only
  congr 1
  apply St.ext'
  · simp only [mark_visited]
    rw [mark_plus_comm, unfold_eq, plus_cons]
  · rfl
  · rfl

theorem mapRoots_eq (roots all : List Nat) (hsub : ∀ r ∈ roots, r ∈ all) (hap : RootsApart g all)
    (s : St α) (m : List (Nat × Nat)) (i : Nat) (W : Nat → Bool)
    (hagree : ∀ y, (∃ r ∈ all, Anc g y r) → s.visited y = W y) :
    roots.foldl (fun (x : St α × List (Nat × Nat) × Nat) r => mapRoot g r x.1 x.2.1 x.2.2) (s, m, i) =
      ({ s with visited := plus s.visited (roots.flatMap (unfold g)) },
        m ++ (frees g W (above g roots)).zipIdx i, i + (frees g W (above g roots)).length) := by
  induction roots generalizing s m i W with
  | nil => simp [above, frees, fresh]
  | cons r l ih =>
    have hr : r ∈ all := hsub r (by simp)
    rw [List.foldl_cons, mapRoot_eq]
    have hf1 : frees g s.visited ((g.parents r).flatMap (unfold g)) =
        frees g W ((g.parents r).flatMap (unfold g)) :=
      frees_congr g fun x hx => hagree x ⟨r, hr, (anc_iff g x r).2 hx⟩
    rw [hf1, ih (fun q hq => hsub q (by simp [hq])) _ _ _ (plus W ((g.parents r).flatMap (unfold g))) (by
      rintro y ⟨r', hr', hy⟩
      have hne : y ≠ r := fun e => hap y (e ▸ hr) r' hr' hy
      simp only [plus, hagree y ⟨r', hr', hy⟩]
      rw [unfold_eq]
      simp [hne])]
    have ha : above g (r :: l) = (g.parents r).flatMap (unfold g) ++ above g l := rfl
    rw [ha, frees_append, List.flatMap_cons, plus_append, List.zipIdx_append]
    simp [Nat.add_assoc]

/-- On a clean graph `_get_mapping` enumerates the order of the specification. -/
theorem getMapping_eq (roots : List Nat) (hap : RootsApart g roots) (s : St α) (h : Clean s) :
    (getMapping g roots s).2 = ((order g roots).zipIdx, (order g roots).length) ∧
    Clean (getMapping g roots s).1 ∧ (getMapping g roots s).1.value = s.value ∧
    ∀ v ∈ above g roots, (getMapping g roots s).1.memo v = false := by
  have hl := mapRoots_eq g roots roots (fun _ h => h) hap s [] 0 (fun _ => false) (fun y _ => h y)
  have ho : frees g (fun _ => false) (above g roots) = order g roots := by rw [order_eq]; rfl
  rw [ho] at hl
  have e : getMapping g roots s =
      (let x := roots.foldl (fun (x : St α × List (Nat × Nat) × Nat) r => mapRoot g r x.1 x.2.1 x.2.2) (s, [], 0)
       (resetFlags g roots x.1, x.2.1, x.2.2)) := by
    rw [getMapping]
    rw [show (forMem roots (fun r _ (x : St α × List (Nat × Nat) × Nat) =>
      match x with
      | (s, m, idx) => mapRoot g r s m idx) (s, [], 0)) = _ from forMem_eq_foldl roots
        (fun r (x : St α × List (Nat × Nat) × Nat) => mapRoot g r x.1 x.2.1 x.2.2) _]
  rw [e, hl]
  refine ⟨by simp, ?_, ?_, ?_⟩
  · apply resetFlags_clean
    intro v hv
    simpa [plus, h v] using hv
  · simp [resetFlags_value]
  · intro v hv
    simp only
    rw [resetFlags_eq]
    have := above_subset g roots hv
    simp only [List.contains_eq_mem, this]
    simp

/-! ### the manager's mapping -/

theorem mmapLoop (n : Nat)
    (node : ∀ p < n, ∀ (s : St α) (i : Nat), Closed g (kNH g) s.visited (p + 1) →
      mmapNode g p s i = ({ s with visited := plus s.visited ((unfold g p).filter (kNH g)) },
        (frees g s.visited (unfold g p)).zipIdx i, i + (frees g s.visited (unfold g p)).length)) :
    ∀ (l : List Nat), (∀ p ∈ l, p < n) → ∀ (s : St α) (m : List (Nat × Nat)) (i : Nat),
      Closed g (kNH g) s.visited n →
      l.foldl (fun (x : St α × List (Nat × Nat) × Nat) p =>
        ((mmapNode g p x.1 x.2.2).1, x.2.1 ++ (mmapNode g p x.1 x.2.2).2.1, (mmapNode g p x.1 x.2.2).2.2))
        (s, m, i) =
      ({ s with visited := plus s.visited ((l.flatMap (unfold g)).filter (kNH g)) },
        m ++ (frees g s.visited (l.flatMap (unfold g))).zipIdx i,
        i + (frees g s.visited (l.flatMap (unfold g))).length) := by
  intro l
  induction l with
  | nil => intro _ s m i _; simp [frees, fresh]
  | cons p l ih =>
    intro hl s m i hc
    have hp : p < n := hl p (by simp)
    rw [List.foldl_cons]
    simp only [node p hp s i (hc.mono hp)]
    rw [ih (fun q hq => hl q (by simp [hq])) _ _ _ (hc.plus p)]
    rw [List.flatMap_cons, List.filter_append, plus_append, frees_append_kNH, List.zipIdx_append]
    simp [Nat.add_assoc]

theorem mmapNode_eq (v : Nat) (s : St α) (i : Nat) (hc : Closed g (kNH g) s.visited (v + 1)) :
    mmapNode g v s i = ({ s with visited := plus s.visited ((unfold g v).filter (kNH g)) },
        (frees g s.visited (unfold g v)).zipIdx i, i + (frees g s.visited (unfold g v)).length) := by
  induction v using Nat.strong_induction_on generalizing s i with
  | _ v ih =>
    have hloop := mmapLoop g v ih (g.parents v) (fun p hp => g.lt_of_parent hp)
    rw [mmapNode]
    by_cases hk : g.kind v = .hyper
    · have hu : unfold g v = [v] := by rw [unfold_eq, g.hyper_leaf hk]; rfl
      simp [hk, hu, frees, fresh_filter, Kind.isFree, fresh]
    · cases hv : s.visited v with
      | true =>
        have hall : ∀ x ∈ (unfold g v).filter (kNH g), s.visited x = true := fun x hx => by
          rw [List.mem_filter] at hx
          exact hc v (Nat.lt_succ_self v) hv x hx.1 hx.2
        rw [frees_nil_of_visited g hall, plus_eq_self hall]
        simp
      | false =>
        simp only [hk, decide_false, Bool.or_false, Bool.false_eq_true, if_false]
        rw [show (forMem (g.parents v) (fun p _ (x : St α × List (Nat × Nat) × Nat) =>
          match x with
          | (s, m, idx) =>
            match mmapNode g p s idx with
            | (s', m', idx') => (s', m ++ m', idx'))
          (if g.kind v = .op then (mark s v, [], i) else (mark s v, [(v, i)], i + 1))) = _ from
          forMem_eq_foldl (g.parents v) (fun p (x : St α × List (Nat × Nat) × Nat) =>
        ((mmapNode g p x.1 x.2.2).1, x.2.1 ++ (mmapNode g p x.1 x.2.2).2.1, (mmapNode g p x.1 x.2.2).2.2)) _]
        have hkv : kNH g v = true := by simp [kNH, hk]
        have hvis : (⟨plus (mark s v).visited (((g.parents v).flatMap (unfold g)).filter (kNH g)),
            (mark s v).memo, (mark s v).value⟩ : St α) =
            { s with visited := plus s.visited ((unfold g v).filter (kNH g)) } := by
          apply St.ext'
          · simp only [mark_visited]
            rw [unfold_eq, List.filter_cons]
            simp only [hkv, if_true, plus_cons]
          · rfl
          · rfl
        by_cases hop : g.kind v = .op
        · simp only [hop, if_true]
          rw [hloop _ _ _ (hc.mono (Nat.le_succ v)).markTop, hvis]
          have e : frees g s.visited (unfold g v) =
              frees g (mark s v).visited ((g.parents v).flatMap (unfold g)) := by
            rw [unfold_eq, mark_visited]
            simp [frees, fresh, hv, hop, Kind.isFree]
          rw [e]; simp
        · have hf : (g.kind v).isFree = true := by cases h : g.kind v <;> simp_all [Kind.isFree]
          simp only [hop, if_false]
          rw [hloop _ _ _ (hc.mono (Nat.le_succ v)).markTop, hvis]
          have e : frees g s.visited (unfold g v) =
              v :: frees g (mark s v).visited ((g.parents v).flatMap (unfold g)) := by
            rw [unfold_eq, mark_visited]
            simp [frees, fresh, hv, hf]
          rw [e]; simp [Nat.add_assoc, Nat.add_comm 1]

theorem mmapRoots_eq (roots all : List Nat) (hsub : ∀ r ∈ roots, r ∈ all) (hap : RootsApart g all)
    (s : St α) (m : List (Nat × Nat)) (i : Nat) (W : Nat → Bool) (hc : ∀ n, Closed g (kNH g) s.visited n)
    (hagree : ∀ y, (∃ r ∈ all, Anc g y r) → s.visited y = W y) :
    roots.foldl (fun (x : St α × List (Nat × Nat) × Nat) r => mmapRoot g r x.1 x.2.1 x.2.2) (s, m, i) =
      ({ s with visited := plus s.visited ((roots.flatMap (unfold g)).filter (kNH g)) },
        m ++ (frees g W (above g roots)).zipIdx i, i + (frees g W (above g roots)).length) := by
  induction roots generalizing s m i W with
  | nil => simp [above, frees, fresh]
  | cons r l ih =>
    have hr : r ∈ all := hsub r (by simp)
    have hf1 : frees g s.visited ((g.parents r).flatMap (unfold g)) =
        frees g W ((g.parents r).flatMap (unfold g)) :=
      frees_congr g fun x hx => hagree x ⟨r, hr, (anc_iff g x r).2 hx⟩
    have ha : above g (r :: l) = (g.parents r).flatMap (unfold g) ++ above g l := rfl
    have hstep : mmapRoot g r s m i = ({ s with visited := plus s.visited ((unfold g r).filter (kNH g)) },
        m ++ (frees g W ((g.parents r).flatMap (unfold g))).zipIdx i,
        i + (frees g W ((g.parents r).flatMap (unfold g))).length) := by
      rw [mmapRoot, ← hf1]
      by_cases hk : g.kind r = .hyper
      · have hu : unfold g r = [r] := by rw [unfold_eq, g.hyper_leaf hk]; rfl
        simp [hk, hu, frees, fresh, g.hyper_leaf hk]
      · cases hv : s.visited r with
        | true =>
          have hall : ∀ x ∈ (unfold g r).filter (kNH g), s.visited x = true := fun x hx => by
            rw [List.mem_filter] at hx
            exact hc (r + 1) r (Nat.lt_succ_self r) hv x hx.1 hx.2
          have hall' : ∀ x ∈ ((g.parents r).flatMap (unfold g)).filter (kNH g), s.visited x = true := fun x hx => by
            rw [List.mem_filter] at hx
            exact hall x (List.mem_filter.2 ⟨by rw [unfold_eq]; exact List.mem_cons_of_mem _ hx.1, hx.2⟩)
          rw [frees_nil_of_visited g hall', plus_eq_self hall]
          simp
        | false =>
          simp only [hk, decide_false, Bool.or_false, Bool.false_eq_true, if_false]
          rw [show (forMem (g.parents r) (fun p _ (x : St α × List (Nat × Nat) × Nat) =>
            match x with
            | (s, m, idx) =>
              match mmapNode g p s idx with
              | (s', m', idx') => (s', m ++ m', idx'))
            (mark s r, m, i)) = _ from
            forMem_eq_foldl (g.parents r) (fun p (x : St α × List (Nat × Nat) × Nat) =>
          ((mmapNode g p x.1 x.2.2).1, x.2.1 ++ (mmapNode g p x.1 x.2.2).2.1, (mmapNode g p x.1 x.2.2).2.2)) _]
          have hkv : kNH g r = true := by simp [kNH, hk]
          rw [mmapLoop g r (fun p _ => mmapNode_eq g p) (g.parents r) (fun p hp => g.lt_of_parent hp) _ _ _
            (hc r).markTop]
          rw [mark_visited]
          simp only [frees]
          rw [fresh_skip_self (not_mem_flatMap_parents g r)]
          congr 1
          apply St.ext'
          · rw [unfold_eq, List.filter_cons]
            simp only [hkv, if_true, plus_cons]
          · rfl
          · rfl
    rw [List.foldl_cons, hstep, ih (fun q hq => hsub q (by simp [hq])) _ _ _
      (plus W (((g.parents r).flatMap (unfold g)).filter (kNH g))) (fun n => (hc n).plus r) (by
      rintro y ⟨r', hr', hy⟩
      have hne : y ≠ r := fun e => hap y (e ▸ hr) r' hr' hy
      simp only [plus, hagree y ⟨r', hr', hy⟩]
      rw [unfold_eq]
      simp [List.filter_cons, hne]
      split <;> simp [hne])]
    rw [ha, frees_append_kNH, List.flatMap_cons, List.filter_append, plus_append, List.zipIdx_append]
    simp [Nat.add_assoc]

theorem mresetNode_eq (v : Nat) (s : St α)
    (ho : ∀ q ∈ (g.parents v).flatMap (unfold g), s.visited q = false → ∀ r ∈ unfold g q, s.visited r = false) :
    mresetNode g v s = { s with visited := fun y => !(unfold g v).contains y && s.visited y } := by
  induction v using Nat.strong_induction_on generalizing s with
  | _ v ih =>
    have loop : ∀ (l : List Nat), (∀ p ∈ l, p < v) → ∀ s : St α,
        (∀ q ∈ l.flatMap (unfold g), s.visited q = false → ∀ r ∈ unfold g q, s.visited r = false) →
        l.foldl (fun s p => if s.visited p then mresetNode g p s else s) s =
        { s with visited := fun y => !(l.flatMap (unfold g)).contains y && s.visited y } := by
      intro l
      induction l with
      | nil => intro _ s _; apply St.ext' <;> simp
      | cons p l ihl =>
        intro hl s ho
        have hl' : ∀ q ∈ l, q < v := fun q hq => hl q (by simp [hq])
        rw [List.foldl_cons]
        rw [List.flatMap_cons] at ho
        have fin : ∀ y, (!(unfold g p ++ l.flatMap (unfold g)).contains y && s.visited y) =
            (!(l.flatMap (unfold g)).contains y && (!(unfold g p).contains y && s.visited y)) := by
          intro y
          simp only [List.contains_eq_mem, List.mem_append]
          by_cases h1 : y ∈ unfold g p <;> by_cases h2 : y ∈ l.flatMap (unfold g) <;> simp [h1, h2]
        cases hv : s.visited p with
        | true =>
          simp only [if_true]
          rw [ih p (hl p (by simp)) s (fun q hq => ho q (List.mem_append_left _ (by
            rw [unfold_eq]; exact List.mem_cons_of_mem _ hq)))]
          rw [ihl hl' _ (by
            intro q hq hvq r hr
            simp only [Bool.and_eq_false_iff, Bool.not_eq_false', List.contains_eq_mem, decide_eq_true_eq] at hvq ⊢
            rcases hvq with h | h
            · exact .inl (unfold_trans g h hr)
            · exact .inr (ho q (List.mem_append_right _ hq) h r hr))]
          apply St.ext'
          · funext y; simp only [List.flatMap_cons]; rw [fin y]
          · rfl
          · rfl
        | false =>
          simp only [Bool.false_eq_true, if_false]
          have hp : ∀ r ∈ unfold g p, s.visited r = false :=
            ho p (List.mem_append_left _ (mem_unfold_self g p)) hv
          rw [ihl hl' _ (fun q hq => ho q (List.mem_append_right _ hq))]
          apply St.ext'
          · funext y; simp only [List.flatMap_cons]; rw [fin y]
            by_cases h1 : y ∈ unfold g p
            · simp [hp y h1]
            · simp [h1]
          · rfl
          · rfl
    rw [mresetNode, forMem_eq_foldl, loop _ (fun p hp => g.lt_of_parent hp) s ho, unfold_eq]
    apply St.ext'
    · funext y; simp [Bool.and_assoc, beq_eq_decide]
    · rfl
    · rfl

theorem mresetFlags_eq (roots : List Nat) (s : St α)
    (ho : ∀ q ∈ above g roots, s.visited q = false → ∀ r ∈ unfold g q, s.visited r = false) :
    mresetFlags g roots s = { s with visited := fun y => !(roots.flatMap (unfold g)).contains y && s.visited y } := by
  rw [mresetFlags, forMem_eq_foldl]
  induction roots generalizing s with
  | nil => apply St.ext' <;> simp
  | cons p l ihl =>
    have ha : above g (p :: l) = (g.parents p).flatMap (unfold g) ++ above g l := rfl
    rw [ha] at ho
    rw [List.foldl_cons, mresetNode_eq g p s (fun q hq => ho q (List.mem_append_left _ hq)), ihl _ (by
      intro q hq hvq r hr
      simp only [Bool.and_eq_false_iff, Bool.not_eq_false', List.contains_eq_mem, decide_eq_true_eq] at hvq ⊢
      rcases hvq with h | h
      · exact .inl (unfold_trans g h hr)
      · exact .inr (ho q (List.mem_append_right _ hq) h r hr))]
    apply St.ext'
    · funext y; simp only [List.flatMap_cons, List.contains_eq_mem, List.mem_append]
      by_cases h1 : y ∈ unfold g p <;> by_cases h2 : y ∈ l.flatMap (unfold g) <;> simp [h1, h2]
    · rfl
    · rfl

/-- On a clean graph the manager's `get_mapping` enumerates the order of the specification. -/
theorem mgetMapping_eq (roots : List Nat) (hap : RootsApart g roots) (s : St α) (h : Clean s) :
    (mgetMapping g roots s).2 = ((order g roots).zipIdx, (order g roots).length) ∧
    Clean (mgetMapping g roots s).1 ∧ (mgetMapping g roots s).1.value = s.value := by
  have hl := mmapRoots_eq g roots roots (fun _ h => h) hap s [] 0 (fun _ => false) (h.closed _) (fun y _ => h y)
  have ho : frees g (fun _ => false) (above g roots) = order g roots := by rw [order_eq]; rfl
  rw [ho] at hl
  have e : mgetMapping g roots s =
      (let x := roots.foldl (fun (x : St α × List (Nat × Nat) × Nat) r => mmapRoot g r x.1 x.2.1 x.2.2) (s, [], 0)
       (mresetFlags g roots x.1, x.2.1, x.2.2)) := by
    rw [mgetMapping]
    rw [show (forMem roots (fun r _ (x : St α × List (Nat × Nat) × Nat) =>
      match x with
      | (s, m, idx) => mmapRoot g r s m idx) (s, [], 0)) = _ from forMem_eq_foldl roots
        (fun r (x : St α × List (Nat × Nat) × Nat) => mmapRoot g r x.1 x.2.1 x.2.2) _]
  rw [e, hl]
  have hopen : ∀ q ∈ above g roots,
      plus s.visited ((roots.flatMap (unfold g)).filter (kNH g)) q = false →
      ∀ r ∈ unfold g q, plus s.visited ((roots.flatMap (unfold g)).filter (kNH g)) r = false := by
    intro q hq hv r hr
    have hq' := above_subset g roots hq
    have hk : g.kind q = .hyper := by
      simp only [plus, h q, Bool.or_false, List.contains_eq_mem, decide_eq_false_iff_not, List.mem_filter,
        hq', true_and, kNH, decide_eq_true_eq, not_not] at hv
      exact hv
    have hu : unfold g q = [q] := by rw [unfold_eq, g.hyper_leaf hk]; rfl
    rw [hu, List.mem_singleton] at hr
    rw [hr]; exact hv
  simp only
  rw [mresetFlags_eq g roots _ hopen]
  refine ⟨by simp, ?_, rfl⟩
  intro v
  simp only [plus, h v, Bool.or_false, List.contains_eq_mem, List.mem_filter]
  by_cases hm : v ∈ roots.flatMap (unfold g) <;> simp only [hm] <;> simp

/-! ### `get_correct_ordering` -/

theorem ordLoop (pairs : List (Nat × List α)) (n : Nat)
    (node : ∀ p < n, ∀ (s : St α), Closed g kAll s.visited (p + 1) →
      ordNode g pairs p s = ({ s with visited := plus s.visited (unfold g p) },
        (fresh s.visited (unfold g p)).flatMap (firstParams pairs))) :
    ∀ (l : List Nat), (∀ p ∈ l, p < n) → ∀ (s : St α) (out : List α), Closed g kAll s.visited n →
      l.foldl (fun (x : St α × List α) p =>
        if x.1.visited p then x
        else ((ordNode g pairs p x.1).1, x.2 ++ (ordNode g pairs p x.1).2)) (s, out) =
      ({ s with visited := plus s.visited (l.flatMap (unfold g)) },
        out ++ (fresh s.visited (l.flatMap (unfold g))).flatMap (firstParams pairs)) := by
  intro l
  induction l with
  | nil => intro _ s out _; simp [fresh]
  | cons p l ih =>
    intro hl s out hc
    have hp : p < n := hl p (by simp)
    rw [List.foldl_cons]
    by_cases hv : s.visited p
    · have hall : ∀ x ∈ unfold g p, s.visited x = true := fun x hx => hc p hp hv x hx rfl
      simp only [hv, if_true]
      rw [ih (fun q hq => hl q (by simp [hq])) s out hc]
      rw [List.flatMap_cons, plus_append, plus_eq_self hall, fresh_append, plus_eq_self hall, fresh_eq_nil hall]
      simp
    · have hv' : s.visited p = false := by simpa using hv
      simp only [hv', Bool.false_eq_true, if_false]
      rw [node p hp s (hc.mono hp), ih (fun q hq => hl q (by simp [hq])) _ _ (by
        have := hc.plus p; rwa [filter_kAll] at this)]
      rw [List.flatMap_cons, plus_append, fresh_append]
      simp [List.flatMap_append]

theorem ordNode_eq (pairs : List (Nat × List α)) (v : Nat) (s : St α) (hc : Closed g kAll s.visited (v + 1)) :
    ordNode g pairs v s = ({ s with visited := plus s.visited (unfold g v) },
        (fresh s.visited (unfold g v)).flatMap (firstParams pairs)) := by
  induction v using Nat.strong_induction_on generalizing s with
  | _ v ih =>
    have hloop := ordLoop g pairs v ih (g.parents v) (fun p hp => g.lt_of_parent hp)
    rw [ordNode]
    cases hv : s.visited v with
    | true =>
      have hall : ∀ x ∈ unfold g v, s.visited x = true := fun x hx => hc v (Nat.lt_succ_self v) hv x hx rfl
      rw [fresh_eq_nil hall, plus_eq_self hall]
      simp
    | false =>
      simp only [Bool.false_eq_true, if_false]
      rw [show (forMem (g.parents v) (fun p _ (x : St α × List α) =>
          match x with
          | (s, out) =>
            if s.visited p then (s, out)
            else match ordNode g pairs p s with
            | (s', o) => (s', out ++ o))
          (mark s v, firstParams pairs v)) = _ from
          forMem_eq_foldl (g.parents v) (fun p (x : St α × List α) =>
        if x.1.visited p then x
        else ((ordNode g pairs p x.1).1, x.2 ++ (ordNode g pairs p x.1).2)) _]
      rw [hloop _ _ (hc.mono (Nat.le_succ v)).markTop]
      rw [unfold_eq]
      simp only [fresh, hv, Bool.false_eq_true, if_false, List.flatMap_cons, mark_visited, plus_cons]
      rfl

theorem ordRoots_eq (pairs : List (Nat × List α)) (roots : List Nat) (s : St α) (out : List α)
    (hc : ∀ n, Closed g kAll s.visited n) :
    roots.foldl (fun (x : St α × List α) r =>
        ((ordNode g pairs r x.1).1, x.2 ++ (ordNode g pairs r x.1).2)) (s, out) =
      ({ s with visited := plus s.visited (roots.flatMap (unfold g)) },
        out ++ (fresh s.visited (roots.flatMap (unfold g))).flatMap (firstParams pairs)) := by
  induction roots generalizing s out with
  | nil => simp [fresh]
  | cons r l ih =>
    rw [List.foldl_cons, ordNode_eq g pairs r s (hc _), ih _ _ (by
      have := fun n => (hc n).plus r; simpa only [filter_kAll] using this)]
    rw [List.flatMap_cons, plus_append, fresh_append]
    simp [List.flatMap_append]

/-- On a clean graph `get_correct_ordering` lists the given values along the first-discovery order. -/
theorem correctOrdering_eq (pairs : List (Nat × List α)) (roots : List Nat) (s : St α) (h : Clean s) :
    (correctOrdering g roots pairs s).2 = ((roots.flatMap (unfold g)).eraseDups).flatMap (firstParams pairs) ∧
    Clean (correctOrdering g roots pairs s).1 ∧ (correctOrdering g roots pairs s).1.value = s.value := by
  have hl := ordRoots_eq g pairs roots s [] (h.closed _)
  have e : correctOrdering g roots pairs s =
      (let x := roots.foldl (fun (x : St α × List α) r =>
        ((ordNode g pairs r x.1).1, x.2 ++ (ordNode g pairs r x.1).2)) (s, [])
       (resetFlags g roots x.1, x.2)) := by
    rw [correctOrdering]
    rw [show (forMem roots (fun r _ (x : St α × List α) =>
      match x with
      | (s, out) => match ordNode g pairs r s with
        | (s', o) => (s', out ++ o)) (s, [])) = _ from forMem_eq_foldl roots
        (fun r (x : St α × List α) => ((ordNode g pairs r x.1).1, x.2 ++ (ordNode g pairs r x.1).2)) _]
  rw [e, hl]
  refine ⟨?_, ?_, ?_⟩
  · simp [h.visited_eq, fresh_none_eq_eraseDups]
  · apply resetFlags_clean
    intro v hv
    simpa [plus, h v] using hv
  · simp [resetFlags_value]

end Verif.Graph
