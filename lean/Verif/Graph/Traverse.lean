import Verif.Graph.Lemmas
/-
The flag-driven traversals compute the flag-free order of `Spec`.
-/
namespace Verif.Graph

variable {α : Type} (g : G)

theorem St.ext' {s t : St α} (h1 : s.visited = t.visited) (h2 : s.memo = t.memo) (h3 : s.value = t.value) :
    s = t := by
  cases s; cases t; simp_all

theorem not_mem_flatMap_parents (v : Nat) : v ∉ (g.parents v).flatMap (unfold g) := by
  intro h
  exact lt_irrefl v ((anc_iff g v v).2 h).lt

/-! ### reset -/

theorem resetNode_eq (v : Nat) (s : St α) :
    resetNode g v s =
      { s with visited := fun y => !(unfold g v).contains y && s.visited y,
               memo := fun y => !(unfold g v).contains y && s.memo y } := by
  induction v using Nat.strong_induction_on generalizing s with
  | _ v ih =>
    have loop : ∀ (l : List Nat), (∀ p ∈ l, p < v) → ∀ s : St α,
        l.foldl (fun s p => resetNode g p s) s =
        { s with visited := fun y => !(l.flatMap (unfold g)).contains y && s.visited y,
                 memo := fun y => !(l.flatMap (unfold g)).contains y && s.memo y } := by
      intro l
      induction l with
      | nil => intro _ s; apply St.ext' <;> simp
      | cons p l ihl =>
        intro hl s
        rw [List.foldl_cons, ih p (hl p (by simp)), ihl (fun q hq => hl q (by simp [hq]))]
        apply St.ext'
        · funext y; simp only [List.flatMap_cons, List.contains_eq_mem, List.mem_append]
          by_cases h1 : y ∈ unfold g p <;> by_cases h2 : y ∈ l.flatMap (unfold g) <;> simp [h1, h2]
        · funext y; simp only [List.flatMap_cons, List.contains_eq_mem, List.mem_append]
          by_cases h1 : y ∈ unfold g p <;> by_cases h2 : y ∈ l.flatMap (unfold g) <;> simp [h1, h2]
        · rfl
    rw [resetNode, forMem_eq_foldl, loop _ (fun p hp => g.lt_of_parent hp), unfold_eq]
    apply St.ext'
    · funext y; simp [clear, Bool.and_assoc, beq_eq_decide]
    · funext y; simp [clear, Bool.and_assoc, beq_eq_decide]
    · rfl

theorem resetFlags_eq (roots : List Nat) (s : St α) :
    resetFlags g roots s =
      { s with visited := fun y => !(roots.flatMap (unfold g)).contains y && s.visited y,
               memo := fun y => !(roots.flatMap (unfold g)).contains y && s.memo y } := by
  rw [resetFlags, forMem_eq_foldl]
  induction roots generalizing s with
  | nil => apply St.ext' <;> simp
  | cons p l ihl =>
    rw [List.foldl_cons, resetNode_eq, ihl]
    apply St.ext'
    · funext y; simp only [List.flatMap_cons, List.contains_eq_mem, List.mem_append]
      by_cases h1 : y ∈ unfold g p <;> by_cases h2 : y ∈ l.flatMap (unfold g) <;> simp [h1, h2]
    · funext y; simp only [List.flatMap_cons, List.contains_eq_mem, List.mem_append]
      by_cases h1 : y ∈ unfold g p <;> by_cases h2 : y ∈ l.flatMap (unfold g) <;> simp [h1, h2]
    · rfl

theorem resetFlags_value (roots : List Nat) (s : St α) : (resetFlags g roots s).value = s.value := by
  rw [resetFlags_eq]

theorem resetFlags_clean (roots : List Nat) (s : St α)
    (h : ∀ v, s.visited v = true → v ∈ roots.flatMap (unfold g)) : Clean (resetFlags g roots s) := by
  intro v
  rw [resetFlags_eq]
  cases hv : s.visited v with
  | false => simp [hv]
  | true => have := h v hv; simp only [List.contains_eq_mem, this]; simp

/-- Outside the graph nothing is touched. -/
theorem resetFlags_visited_of_not (roots : List Nat) (s : St α) (v : Nat) (h : ¬ InGraph g roots v) :
    (resetFlags g roots s).visited v = s.visited v := by
  rw [resetFlags_eq]
  have : v ∉ roots.flatMap (unfold g) := fun hm => by
    obtain ⟨r, hr, h'⟩ := List.mem_flatMap.1 hm
    exact h ((inGraph_iff g roots v).2 ⟨r, hr, h'⟩)
  simp [this]

/-! ### bookkeeping shared by the traversals -/

theorem mark_visited (s : St α) (v) : (mark s v).visited = fun y => y == v || s.visited y := rfl
@[simp] theorem mark_value (s : St α) (v) : (mark s v).value = s.value := rfl
@[simp] theorem mark_memo (s : St α) (v) : (mark s v).memo = s.memo := rfl

theorem fresh_skip_self {vis : Nat → Bool} {v : Nat} {l : List Nat} (h : v ∉ l) :
    fresh (fun y => y == v || vis y) l = fresh vis l :=
  fresh_congr fun x hx => by
    have : x ≠ v := fun e => h (e ▸ hx)
    simp [this]

theorem mark_plus_comm (vis : Nat → Bool) (v : Nat) (l : List Nat) :
    (fun y => y == v || plus vis l y) = plus (fun y => y == v || vis y) l := by
  funext y; simp only [plus]
  cases (y == v) <;> cases (l.contains y) <;> cases (vis y) <;> rfl

/-- all predicates -/
abbrev kAll : Nat → Bool := fun _ => true
/-- everything but hyperparameters -/
abbrev kNH (g : G) : Nat → Bool := fun v => decide (g.kind v ≠ .hyper)

theorem filter_kAll (l : List Nat) : l.filter kAll = l := by simp

/-! ### get_parameters -/

/-- Values of the free nodes first met in `l`. -/
def outs (s : St α) (vis : Nat → Bool) (l : List Nat) : List (Option α) :=
  ((fresh vis l).filter fun v => (g.kind v).isFree).map s.value

theorem outs_append (s : St α) (vis a b) : outs g s vis (a ++ b) = outs g s vis a ++ outs g s (plus vis a) b := by
  simp [outs, fresh_append]

/-- Loop over inputs, given the behaviour of each recursive call. -/
theorem getLoop (n : Nat)
    (node : ∀ p < n, ∀ s : St α, Closed g kAll s.visited p → s.visited p = false →
      mark (getNode g p s).1 p = { s with visited := plus s.visited (unfold g p) } ∧
      (getNode g p s).2 = outs g s s.visited (unfold g p)) :
    ∀ (l : List Nat), (∀ p ∈ l, p < n) → ∀ (s : St α) (out : List (Option α)), Closed g kAll s.visited n →
      l.foldl (fun (x : St α × List (Option α)) p =>
        if x.1.visited p then x
        else (mark (getNode g p x.1).1 p, x.2 ++ (getNode g p x.1).2)) (s, out) =
      ({ s with visited := plus s.visited (l.flatMap (unfold g)) },
        out ++ outs g s s.visited (l.flatMap (unfold g))) := by
  intro l
  induction l with
  | nil => intro _ s out _; simp [outs, fresh]
  | cons p l ih =>
    intro hl s out hc
    have hp : p < n := hl p (by simp)
    rw [List.foldl_cons]
    by_cases hv : s.visited p
    · have hall : ∀ x ∈ unfold g p, s.visited x = true := fun x hx => hc p hp hv x hx rfl
      simp only [hv, if_true]
      rw [ih (fun q hq => hl q (by simp [hq])) s out hc]
      rw [List.flatMap_cons, plus_append, plus_eq_self hall, outs_append, plus_eq_self hall]
      simp [outs, fresh_eq_nil hall]
    · have hv' : s.visited p = false := by simpa using hv
      obtain ⟨h1, h2⟩ := node p hp s (hc.mono hp.le) hv'
      simp only [hv', Bool.false_eq_true, if_false]
      rw [h1, h2, ih (fun q hq => hl q (by simp [hq])) _ _ (by
        have := hc.plus p; rwa [filter_kAll] at this)]
      rw [List.flatMap_cons, plus_append, outs_append]
      simp [outs]

theorem getNode_eq (v : Nat) (s : St α) :
    Closed g kAll s.visited v → s.visited v = false →
      mark (getNode g v s).1 v = { s with visited := plus s.visited (unfold g v) } ∧
      (getNode g v s).2 = outs g s s.visited (unfold g v) := by
  induction v using Nat.strong_induction_on generalizing s with
  | _ v ih =>
    intro hc hv
    have hloop := getLoop g v (fun p hp s => ih p hp s) (g.parents v) (fun p hp => g.lt_of_parent hp)
    have hg : getNode g v s = (g.parents v).foldl (fun (x : St α × List (Option α)) p =>
        if x.1.visited p then x
        else (mark (getNode g p x.1).1 p, x.2 ++ (getNode g p x.1).2))
        (if (g.kind v).isFree then (mark s v, [s.value v]) else (s, [])) := by
      rw [getNode]
      exact forMem_eq_foldl (g.parents v) _ _
    rw [hg]
    by_cases hf : (g.kind v).isFree
    · simp only [hf, if_true]
      rw [hloop (mark s v) _ hc.markTop]
      refine ⟨?_, ?_⟩
      · apply St.ext'
        · simp only [mark_visited]
          rw [mark_plus_comm, unfold_eq, plus_cons]
          congr 1
          funext y; cases (y == v) <;> rfl
        · rfl
        · rfl
      · rw [unfold_eq]
        simp [outs, fresh, hv, hf, mark_visited]
    · simp only [hf, Bool.false_eq_true, if_false]
      rw [hloop s _ hc]
      refine ⟨?_, ?_⟩
      · apply St.ext'
        · simp only [mark_visited]
          rw [mark_plus_comm, unfold_eq, plus_cons]
        · rfl
        · rfl
      · rw [unfold_eq]
        simp [outs, fresh, hv, hf, fresh_skip_self (not_mem_flatMap_parents g v)]

theorem foldl_congr_fun {β σ : Type} {f h : σ → β → σ} (l : List β) (s : σ) (e : ∀ s, ∀ x ∈ l, f s x = h s x) :
    l.foldl f s = l.foldl h s := by
  induction l generalizing s with
  | nil => rfl
  | cons x l ih => rw [List.foldl_cons, List.foldl_cons, e s x (by simp), ih _ (fun s y hy => e s y (by simp [hy]))]

theorem getRoot_eq (r : Nat) (s : St α) (out) (hc : ∀ n, Closed g kAll s.visited n) :
    getRoot g r s out = ({ s with visited := plus s.visited ((g.parents r).flatMap (unfold g)) },
      out ++ outs g s s.visited ((g.parents r).flatMap (unfold g))) := by
  have := getLoop g r (fun p _ s => getNode_eq g p s) (g.parents r) (fun p hp => g.lt_of_parent hp) s out (hc r)
  rw [← this, getRoot]
  exact forMem_eq_foldl (g.parents r) _ _

theorem closed_flatMap {k vis} (h : ∀ n, Closed g k vis n) (l : List Nat) :
    ∀ n, Closed g k (plus vis ((l.flatMap (unfold g)).filter k)) n := by
  induction l generalizing vis with
  | nil => simpa using h
  | cons p l ih =>
    rw [List.flatMap_cons, List.filter_append, plus_append]
    exact ih (fun n => (h n).plus p)

theorem getParameters_loop (roots : List Nat) (s : St α) (out) (hc : ∀ n, Closed g kAll s.visited n) :
    roots.foldl (fun (x : St α × List (Option α)) r => getRoot g r x.1 x.2) (s, out) =
      ({ s with visited := plus s.visited (above g roots) }, out ++ outs g s s.visited (above g roots)) := by
  induction roots generalizing s out with
  | nil => simp [above, outs, fresh]
  | cons r l ih =>
    rw [List.foldl_cons, getRoot_eq g r s out hc, ih _ _ (by
      have := closed_flatMap g hc (g.parents r); simpa only [filter_kAll] using this)]
    have ha : above g (r :: l) = (g.parents r).flatMap (unfold g) ++ above g l := rfl
    rw [ha, plus_append, outs_append]
    simp [outs]

theorem Clean.visited_eq {s : St α} (h : Clean s) : s.visited = fun _ => false := funext h

theorem Clean.closed {g : G} {s : St α} (h : Clean s) (k) : ∀ n, Closed g k s.visited n := by
  rw [h.visited_eq]; exact fun n => closed_false g k n

theorem Clean.eq {s : St α} (h : Clean s) : { s with visited := fun _ => false } = s := by
  apply St.ext' <;> simp [h.visited_eq]

theorem above_subset (roots : List Nat) {v} (h : v ∈ above g roots) : v ∈ roots.flatMap (unfold g) := by
  obtain ⟨r, hr, ha⟩ := (mem_above g roots v).1 h
  exact List.mem_flatMap.2 ⟨r, hr, (mem_unfold_iff g v r).2 (.inr ha)⟩

/-- On a clean graph `get_parameters` reads the stored values in the order of the specification, and only
the memo flags may change. -/
theorem getParameters_eq (roots : List Nat) (s : St α) (h : Clean s) :
    (getParameters g roots s).2 = (order g roots).map s.value ∧
    Clean (getParameters g roots s).1 ∧ (getParameters g roots s).1.value = s.value := by
  have hloop := getParameters_loop g roots s [] (h.closed kAll)
  have e : getParameters g roots s =
      (resetFlags g roots (roots.foldl (fun (x : St α × List (Option α)) r => getRoot g r x.1 x.2) (s, [])).1,
       (roots.foldl (fun (x : St α × List (Option α)) r => getRoot g r x.1 x.2) (s, [])).2) := by
    rw [getParameters]
    have := forMem_eq_foldl roots (fun r (x : St α × List (Option α)) => getRoot g r x.1 x.2) (s, [])
    rw [← this]
  rw [e, hloop]
  refine ⟨?_, ?_, ?_⟩
  · simp [outs, order_eq, h.visited_eq]
  · apply resetFlags_clean
    intro v hv
    simp only [plus, h v, Bool.or_false, List.contains_eq_mem, decide_eq_true_eq] at hv
    exact above_subset g roots hv
  · rw [resetFlags_value]

end Verif.Graph
