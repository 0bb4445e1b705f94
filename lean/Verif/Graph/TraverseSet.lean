import Verif.Graph.Traverse
/-
`set_parameters` assigns in the order of the specification.
-/
namespace Verif.Graph

variable {α : Type} (g : G)
variable (chk : (Nat → Option α) → Nat → α → Verdict) (ps : List α)

/-- Free nodes first met in `l`. -/
def frees (vis : Nat → Bool) (l : List Nat) : List Nat := (fresh vis l).filter fun v => (g.kind v).isFree

theorem assign_append (a b : List Nat) (i : Nat) (val : Nat → Option α) :
    assignInOrder chk ps (a ++ b) i val =
      match assignInOrder chk ps a i val with
      | .error e => .error e
      | .ok (val, i) => assignInOrder chk ps b i val := by
  induction a generalizing i val with
  | nil => rfl
  | cons v a ih =>
    simp only [List.cons_append, assignInOrder]
    cases ps[i]? with
    | none => rfl
    | some x =>
      cases h : chk val v x <;> simp [ih, h]

theorem store_value (s : St α) (v x) : (store s v x).value = fun y => if y = v then some x else s.value y := rfl
theorem store_visited (s : St α) (v x) : (store s v x).visited = s.visited := rfl
theorem store_memo (s : St α) (v x) : (store s v x).memo = s.memo := rfl

/-- What a call over the nodes `l`, started in `s` at index `i`, must return. -/
def SetRel (s : St α) (i : Nat) (l : List Nat) (res : Except (SetFail × St α) (St α × Nat)) : Prop :=
  match assignInOrder chk ps (frees g s.visited l) i s.value with
  | .ok (val, j) => res = .ok ({ s with visited := plus s.visited (l.filter (kNH g)), value := val }, j)
  | .error (e, val) => ∃ vis, res = .error (e, { s with visited := vis, value := val }) ∧
      ∀ y, vis y = true → y ∈ l ∨ s.visited y = true

theorem setLoop (n : Nat)
    (node : ∀ p < n, ∀ (s : St α) (i : Nat), Closed g (kNH g) s.visited p → s.visited p = false →
      g.kind p ≠ .hyper → SetRel g chk ps s i (unfold g p) (setNode g chk ps p s i)) :
    ∀ (l : List Nat), (∀ p ∈ l, p < n) → ∀ (s : St α) (i : Nat), Closed g (kNH g) s.visited n →
      SetRel g chk ps s i (l.flatMap (unfold g)) (loopE (fun p (x : St α × Nat) =>
        if x.1.visited p || decide (g.kind p = .hyper) then .ok (x.1, x.2) else setNode g chk ps p x.1 x.2) l (s, i)) := by
  intro l
  induction l with
  | nil => intro _ s i _; simp [SetRel, frees, fresh, assignInOrder, loopE]
  | cons p l ih =>
    intro hl s i hc
    have hp : p < n := hl p (by simp)
    have hl' : ∀ q ∈ l, q < n := fun q hq => hl q (by simp [hq])
    rw [loopE]
    by_cases hk : g.kind p = .hyper
    · have hu : unfold g p = [p] := by rw [unfold_eq, g.hyper_leaf hk]; rfl
      have := ih hl' s i hc
      simp only [hk, decide_true, Bool.or_true, if_true]
      unfold SetRel at this ⊢
      have e1 : frees g s.visited ((p :: l).flatMap (unfold g)) = frees g s.visited (l.flatMap (unfold g)) := by
        rw [List.flatMap_cons, hu]
        simp only [frees, List.singleton_append]
        rw [fresh_filter, fresh_filter, List.filter_cons]
        simp [hk, Kind.isFree]
      have e2 : ((p :: l).flatMap (unfold g)).filter (kNH g) = (l.flatMap (unfold g)).filter (kNH g) := by
        rw [List.flatMap_cons, hu]; simp [kNH, hk]
      rw [e1, e2]
      split at this
      · exact this
      · obtain ⟨vis, h1, h2⟩ := this
        refine ⟨vis, h1, fun y hy => ?_⟩
        rcases h2 y hy with h | h
        · exact .inl (by rw [List.flatMap_cons]; exact List.mem_append_right _ h)
        · exact .inr h
    · by_cases hv : s.visited p
      · have hall : ∀ x ∈ (unfold g p).filter (kNH g), s.visited x = true := fun x hx => by
          rw [List.mem_filter] at hx
          exact hc p hp hv x hx.1 hx.2
        simp only [hv, Bool.true_or, if_true]
        have := ih hl' s i hc
        unfold SetRel at this ⊢
        have hfree : ∀ x ∈ (unfold g p).filter (fun v => (g.kind v).isFree), s.visited x = true := fun x hx => by
          rw [List.mem_filter] at hx
          refine hall x (List.mem_filter.2 ⟨hx.1, ?_⟩)
          cases hkx : g.kind x <;> simp_all [Kind.isFree]
        have e1 : frees g s.visited ((p :: l).flatMap (unfold g)) = frees g s.visited (l.flatMap (unfold g)) := by
          rw [List.flatMap_cons]
          simp only [frees]
          rw [fresh_filter, fresh_filter, List.filter_append, fresh_append, fresh_eq_nil hfree, plus_eq_self hfree]
          rfl
        have e2 : plus s.visited (((p :: l).flatMap (unfold g)).filter (kNH g)) =
            plus s.visited ((l.flatMap (unfold g)).filter (kNH g)) := by
          rw [List.flatMap_cons, List.filter_append, plus_append, plus_eq_self hall]
        rw [e1, e2]
        split at this
        · exact this
        · obtain ⟨vis, h1, h2⟩ := this
          refine ⟨vis, h1, fun y hy => ?_⟩
          rcases h2 y hy with h | h
          · exact .inl (by rw [List.flatMap_cons]; exact List.mem_append_right _ h)
          · exact .inr h
      · have hv' : s.visited p = false := by simpa using hv
        have hn := node p hp s i (hc.mono hp.le) hv' hk
        have hc' := hc.plus p
        simp only [hv', hk, decide_false, Bool.or_false, Bool.false_eq_true, if_false]
        unfold SetRel at hn
        have e1 : frees g s.visited ((p :: l).flatMap (unfold g)) =
            frees g s.visited (unfold g p) ++
              frees g (plus s.visited ((unfold g p).filter (kNH g))) (l.flatMap (unfold g)) := by
          rw [List.flatMap_cons]
          simp only [frees]
          rw [fresh_append, List.filter_append]
          congr 1
          rw [fresh_filter, fresh_filter]
          refine fresh_congr fun x hx => ?_
          rw [List.mem_filter] at hx
          simp only [plus, List.contains_eq_mem, List.mem_filter]
          have : kNH g x = true := by
            cases hkx : g.kind x <;> simp_all [Kind.isFree]
          simp [this]
        unfold SetRel
        rw [e1, assign_append]
        split at hn
        · rename_i val j heq
          rw [hn, heq]
          simp only
          have := ih hl' { s with visited := plus s.visited ((unfold g p).filter (kNH g)), value := val } j hc'
          unfold SetRel at this
          simp only at this
          rw [List.flatMap_cons, List.filter_append, plus_append]
          split at this
          · rename_i heq2
            exact this
          · rename_i heq2
            obtain ⟨vis, h1, h2⟩ := this
            refine ⟨vis, h1, fun y hy => ?_⟩
            rcases h2 y hy with h | h
            · exact .inl (List.mem_append_right _ h)
            · simp only [plus, List.contains_eq_mem, Bool.or_eq_true, decide_eq_true_eq, List.mem_filter] at h
              rcases h with h | h
              · exact .inl (List.mem_append_left _ h.1)
              · exact .inr h
        · rename_i e val heq
          obtain ⟨vis, h1, h2⟩ := hn
          rw [heq, h1]
          refine ⟨vis, rfl, fun y hy => ?_⟩
          rcases h2 y hy with h | h
          · exact .inl (by rw [List.flatMap_cons]; exact List.mem_append_left _ h)
          · exact .inr h

theorem setNode_rel (v : Nat) (s : St α) (i : Nat) :
    Closed g (kNH g) s.visited v → s.visited v = false → g.kind v ≠ .hyper →
      SetRel g chk ps s i (unfold g v) (setNode g chk ps v s i) := by
  induction v using Nat.strong_induction_on generalizing s i with
  | _ v ih =>
    intro hc hv hk
    have hloop := setLoop g chk ps v (fun p hp s i => ih p hp s i) (g.parents v) (fun p hp => g.lt_of_parent hp)
    have hg : ∀ s0 : St α × Nat, forMemE (ε := SetFail × St α) (g.parents v) (fun p _ (x : St α × Nat) =>
        if x.1.visited p || decide (g.kind p = .hyper) then .ok (x.1, x.2) else setNode g chk ps p x.1 x.2) s0 =
        loopE (fun p (x : St α × Nat) =>
        if x.1.visited p || decide (g.kind p = .hyper) then .ok (x.1, x.2) else setNode g chk ps p x.1 x.2)
          (g.parents v) s0 := fun s0 => forMemE_eq_loopE (g.parents v) _ s0
    have hkv : kNH g v = true := by simp [kNH, hk]
    have hnm := not_mem_flatMap_parents g v
    rw [setNode]
    by_cases hop : g.kind v = .op
    · simp only [hop, if_true]
      rw [show (forMemE (ε := SetFail × St α) (g.parents v) (fun p _ (x : St α × Nat) =>
        match x with
        | (s, idx) => if s.visited p || decide (g.kind p = .hyper) then .ok (s, idx) else setNode g chk ps p s idx)
          (s, i)) = _ from hg (s, i)]
      have := hloop s i hc
      unfold SetRel at this ⊢
      have e1 : frees g s.visited (unfold g v) = frees g s.visited ((g.parents v).flatMap (unfold g)) := by
        simp only [frees]
        rw [fresh_filter, fresh_filter, unfold_eq, List.filter_cons]
        simp [hop, Kind.isFree]
      rw [e1]
      split at this
      · rename_i val j heq
        rw [this]
        simp only [heq]
        congr 2
        apply St.ext'
        · simp only [mark_visited]
          rw [mark_plus_comm, unfold_eq, List.filter_cons]
          simp only [hkv, if_true, plus_cons]
        · rfl
        · rfl
      · rename_i e val heq
        obtain ⟨vis, h1, h2⟩ := this
        rw [h1]
        simp only [heq]
        refine ⟨vis, rfl, fun y hy => ?_⟩
        rcases h2 y hy with h | h
        · exact .inl (by rw [unfold_eq]; exact List.mem_cons_of_mem _ h)
        · exact .inr h
    · have hf : (g.kind v).isFree = true := by cases h : g.kind v <;> simp_all [Kind.isFree]
      simp only [hop, if_false]
      unfold SetRel
      have e1 : frees g s.visited (unfold g v) =
          v :: frees g (fun y => y == v || s.visited y) ((g.parents v).flatMap (unfold g)) := by
        simp only [frees]
        rw [unfold_eq]
        simp [fresh, hv, hf]
      rw [e1, assignInOrder]
      cases hps : ps[i]? with
      | none =>
        exact ⟨s.visited, rfl, fun y hy => .inr hy⟩
      | some x =>
        simp only
        cases hck : chk s.value v x with
        | «raise» => exact ⟨s.visited, rfl, fun y hy => .inr hy⟩
        | reject => exact ⟨s.visited, rfl, fun y hy => .inr hy⟩
        | accept =>
          simp only
          rw [show (forMemE (ε := SetFail × St α) (g.parents v) (fun p _ (x : St α × Nat) =>
            match x with
            | (s, idx) => if s.visited p || decide (g.kind p = .hyper) then .ok (s, idx) else setNode g chk ps p s idx)
              (mark (store s v x) v, i + 1)) = _ from hg _]
          have := hloop (mark (store s v x) v) (i + 1) hc.markTop
          unfold SetRel at this
          simp only [mark_visited, mark_value, mark_memo, store_value, store_visited, store_memo] at this
          split at this
          · rename_i val j heq
            rw [this]
            simp only
            congr 2
            apply St.ext'
            · simp only [mark_visited]
              rw [mark_plus_comm, unfold_eq, List.filter_cons]
              simp only [hkv, if_true, plus_cons]
              congr 1
              funext y; cases (y == v) <;> rfl
            · rfl
            · rfl
          · rename_i e val heq
            obtain ⟨vis, h1, h2⟩ := this
            rw [h1]
            refine ⟨vis, rfl, fun y hy => ?_⟩
            rcases h2 y hy with h | h
            · exact .inl (by rw [unfold_eq]; exact List.mem_cons_of_mem _ h)
            · by_cases hyv : y = v
              · exact .inl (by rw [hyv]; exact mem_unfold_self g v)
              · simp [hyv] at h; exact .inr h

/-- `setRoot`: same as the loop, then the root is marked. -/
theorem setRoot_eq (r : Nat) (s : St α) (i : Nat) :
    setRoot g chk ps r s i =
      match loopE (fun p (x : St α × Nat) =>
        if x.1.visited p || decide (g.kind p = .hyper) then .ok (x.1, x.2) else setNode g chk ps p x.1 x.2)
          (g.parents r) (s, i) with
      | .error e => .error e
      | .ok (s, idx) => .ok (mark s r, idx) := by
  rw [← forMemE_eq_loopE, setRoot]
  rfl

theorem closed_mark_root {vis : Nat → Bool} (r : Nat) (h : ∀ n, Closed g (kNH g) vis n) :
    ∀ n, Closed g (kNH g)
      (fun y => y == r || plus vis (((g.parents r).flatMap (unfold g)).filter (kNH g)) y) n := by
  intro n q _ hq x hx hk
  have hcl := closed_flatMap g h (g.parents r)
  by_cases hqr : q = r
  · subst hqr
    rw [unfold_eq] at hx
    rcases List.mem_cons.1 hx with rfl | hx
    · simp
    · have : x ∈ ((g.parents q).flatMap (unfold g)).filter (kNH g) := List.mem_filter.2 ⟨hx, hk⟩
      simp only [plus, List.contains_eq_mem, this, decide_true, Bool.true_or, Bool.or_true]
  · have hq' : plus vis (((g.parents r).flatMap (unfold g)).filter (kNH g)) q = true := by
      simpa [hqr] using hq
    have := hcl (q + 1) q (Nat.lt_succ_self q) hq' x hx hk
    simp [this]

/-- The result of running `set_parameters` over some of the roots. -/
def RootsRel (s : St α) (i : Nat) (roots : List Nat) (L : List Nat)
    (res : Except (SetFail × St α) (St α × Nat)) : Prop :=
  match assignInOrder chk ps L i s.value with
  | .ok (val, j) => ∃ vis, res = .ok ({ s with visited := vis, value := val }, j) ∧
      ∀ y, vis y = true → y ∈ roots.flatMap (unfold g) ∨ s.visited y = true
  | .error (e, val) => ∃ vis, res = .error (e, { s with visited := vis, value := val }) ∧
      ∀ y, vis y = true → y ∈ roots.flatMap (unfold g) ∨ s.visited y = true

theorem setRoots_rel (roots all : List Nat) (hsub : ∀ r ∈ roots, r ∈ all) (hap : RootsApart g all)
    (s : St α) (i : Nat) (W : Nat → Bool) (hc : ∀ n, Closed g (kNH g) s.visited n)
    (hagree : ∀ y, (∃ r ∈ all, Anc g y r) → s.visited y = W y) :
    RootsRel g chk ps s i roots (frees g W (above g roots))
      (loopE (fun r (x : St α × Nat) => setRoot g chk ps r x.1 x.2) roots (s, i)) := by
  induction roots generalizing s i W with
  | nil =>
    simp only [RootsRel, above, List.flatMap_nil, frees, fresh, List.filter_nil, assignInOrder, loopE]
    exact ⟨s.visited, rfl, fun y hy => .inr hy⟩
  | cons r l ih =>
    have hr : r ∈ all := hsub r (by simp)
    have hl := (fun q hq => hsub q (by simp [hq]) : ∀ q ∈ l, q ∈ all)
    have key := setLoop g chk ps r (fun p _ s i => setNode_rel g chk ps p s i) (g.parents r)
      (fun p hp => g.lt_of_parent hp) s i (hc r)
    have hsplit : above g (r :: l) = (g.parents r).flatMap (unfold g) ++ above g l := rfl
    have hf1 : frees g s.visited ((g.parents r).flatMap (unfold g)) =
        frees g W ((g.parents r).flatMap (unfold g)) := by
      simp only [frees]
      congr 1
      exact fresh_congr fun x hx => hagree x ⟨r, hr, (anc_iff g x r).2 hx⟩
    have hfr : frees g W (above g (r :: l)) = frees g W ((g.parents r).flatMap (unfold g)) ++
        frees g (plus W (((g.parents r).flatMap (unfold g)).filter (kNH g))) (above g l) := by
      rw [hsplit]
      simp only [frees]
      rw [fresh_append, List.filter_append]
      congr 1
      rw [fresh_filter, fresh_filter]
      refine fresh_congr fun x hx => ?_
      rw [List.mem_filter] at hx
      simp only [plus, List.contains_eq_mem, List.mem_filter]
      have : kNH g x = true := by cases hkx : g.kind x <;> simp_all [Kind.isFree]
      simp [this]
    unfold RootsRel
    unfold SetRel at key
    rw [hf1] at key
    rw [hfr, assign_append, loopE, setRoot_eq]
    split at key
    · rename_i val j heq
      rw [key, heq]
      simp only
      have hc' := closed_mark_root g r hc
      have hstep := ih hl (mark { s with
          visited := plus s.visited (((g.parents r).flatMap (unfold g)).filter (kNH g)), value := val } r) j
        (plus W (((g.parents r).flatMap (unfold g)).filter (kNH g))) hc' (by
          rintro y ⟨r', hr', hy⟩
          have hne : y ≠ r := fun e => hap y (e ▸ hr) r' hr' hy
          simp only [mark_visited, plus, hagree y ⟨r', hr', hy⟩]
          simp [hne])
      unfold RootsRel at hstep
      simp only [mark_value, mark_memo] at hstep
      have hsub' : ∀ y, (y ∈ l.flatMap (unfold g) ∨ (mark { s with
          visited := plus s.visited (((g.parents r).flatMap (unfold g)).filter (kNH g)), value := val } r).visited y
            = true) → y ∈ (r :: l).flatMap (unfold g) ∨ s.visited y = true := by
        intro y hy
        rcases hy with h | h
        · exact .inl (by rw [List.flatMap_cons]; exact List.mem_append_right _ h)
        · simp only [mark_visited, plus, Bool.or_eq_true, beq_iff_eq, List.contains_eq_mem, decide_eq_true_eq,
            List.mem_filter] at h
          rcases h with h | h | h
          · exact .inl (by rw [List.flatMap_cons, h]; exact List.mem_append_left _ (mem_unfold_self g r))
          · refine .inl (by rw [List.flatMap_cons, unfold_eq]; exact List.mem_append_left _ (List.mem_cons_of_mem _ h.1))
          · exact .inr h
      split at hstep
      · rename_i heq2
        obtain ⟨vis, h1, h2⟩ := hstep
        exact ⟨vis, h1, fun y hy => hsub' y (h2 y hy)⟩
      · rename_i heq2
        obtain ⟨vis, h1, h2⟩ := hstep
        exact ⟨vis, h1, fun y hy => hsub' y (h2 y hy)⟩
    · rename_i e val heq
      obtain ⟨vis, h1, h2⟩ := key
      rw [heq, h1]
      refine ⟨vis, rfl, fun y hy => ?_⟩
      rcases h2 y hy with h | h
      · exact .inl (by rw [List.flatMap_cons, unfold_eq]; exact List.mem_append_left _ (List.mem_cons_of_mem _ h))
      · exact .inr h

/-- On a clean graph `set_parameters` assigns the vector along the order of the specification, and unless it
raises it leaves a clean graph. -/
theorem setParameters_eq (roots : List Nat) (hap : RootsApart g roots) (s : St α) (h : Clean s) :
    match assignInOrder chk ps (order g roots) 0 s.value with
    | .ok (val, k) => (setParameters g chk roots ps s).2 = .ok k ∧
        (setParameters g chk roots ps s).1.value = val ∧ Clean (setParameters g chk roots ps s).1
    | .error (.rejected i, val) => (setParameters g chk roots ps s).2 = .error (.rejected i) ∧
        (setParameters g chk roots ps s).1.value = val ∧ Clean (setParameters g chk roots ps s).1
    | .error (.raised, val) => (setParameters g chk roots ps s).2 = .error .raised ∧
        (setParameters g chk roots ps s).1.value = val := by
  have key := setRoots_rel g chk ps roots roots (fun _ h => h) hap s 0 (fun _ => false) (h.closed _)
    (fun y _ => h y)
  have ho : frees g (fun _ => false) (above g roots) = order g roots := by rw [order_eq]; rfl
  rw [ho] at key
  unfold RootsRel at key
  have e : forMemE (ε := SetFail × St α) roots (fun r _ (x : St α × Nat) => setRoot g chk ps r x.1 x.2) (s, 0) =
      loopE (fun r (x : St α × Nat) => setRoot g chk ps r x.1 x.2) roots (s, 0) := forMemE_eq_loopE roots _ _
  have hclean : ∀ (vis : Nat → Bool) (val : Nat → Option α), (∀ y, vis y = true → y ∈ roots.flatMap (unfold g) ∨ s.visited y = true) →
      Clean (resetFlags g roots { s with visited := vis, value := val }) := by
    intro vis val hvis
    apply resetFlags_clean
    intro v hv
    rcases hvis v hv with h' | h'
    · exact h'
    · rw [h v] at h'; simp at h'
  have hset : setParameters g chk roots ps s =
      match loopE (fun r (x : St α × Nat) => setRoot g chk ps r x.1 x.2) roots (s, 0) with
      | .ok (s, idx) => (resetFlags g roots s, .ok idx)
      | .error (.rejected i, s) => (resetFlags g roots s, .error (.rejected i))
      | .error (.raised, s) => (s, .error .raised) := by
    rw [← e, setParameters]; rfl
  rw [hset]
  cases ha : assignInOrder chk ps (order g roots) 0 s.value with
  | ok x =>
    obtain ⟨val, k⟩ := x
    rw [ha] at key
    obtain ⟨vis, h1, h2⟩ := key
    simp only [h1, resetFlags_value, true_and]
    exact hclean vis val h2
  | error x =>
    obtain ⟨ef, val⟩ := x
    rw [ha] at key
    obtain ⟨vis, h1, h2⟩ := key
    cases ef with
    | rejected i =>
      simp only [h1, resetFlags_value, true_and]
      exact hclean vis val h2
    | raised => simp [h1]

end Verif.Graph
