import Verif.Graph.TraverseMap
/-
Invariants of one attempt of `sample_from_prior`.
-/
namespace Verif.Graph

variable {α : Type} (g : G) (sm : Sim α) {P : Nat → Prop}

/-- Nodes drawn, in order. -/
def drawn (s : Smp α) : List Nat := s.log.map Prod.fst

/-- Every node of the list comes after all of its inputs. -/
def InputsFirst (l : List Nat) : Prop := ∀ a x b, l = a ++ x :: b → ∀ p ∈ g.parents x, p ∈ a

theorem InputsFirst.snoc {l : List Nat} {x : Nat} (h : InputsFirst g l) (hx : ∀ p ∈ g.parents x, p ∈ l) :
    InputsFirst g (l ++ [x]) := by
  intro a y b he p hp
  rcases List.append_eq_append_iff.1 he with ⟨c, h1, h2⟩ | ⟨c, h1, h2⟩
  · cases c with
    | nil =>
      simp at h1 h2
      obtain ⟨rfl, _⟩ := h2
      subst h1; exact hx p hp
    | cons z c => simp at h2
  · cases c with
    | nil =>
      simp at h1 h2
      obtain ⟨rfl, _⟩ := h2
      rw [← h1]; exact hx p hp
    | cons z c =>
      simp only [List.cons_append, List.cons.injEq] at h2
      obtain ⟨rfl, h2⟩ := h2
      exact h a y c h1 p hp

/-- Well-formed log: no node twice, inputs first, all draws succeeded. -/
structure LogOk (s : Smp α) : Prop where
  nodup : (drawn s).Nodup
  topo : InputsFirst g (drawn s)
  allOk : ∀ e ∈ s.log, e.2 = true

/-- Well-formed log of an attempt that failed: only the last draw failed. -/
structure LogBad (s : Smp α) : Prop where
  nodup : (drawn s).Nodup
  topo : InputsFirst g (drawn s)
  lastBad : ∃ l v, s.log = l ++ [(v, false)] ∧ ∀ e ∈ l, e.2 = true

/-- Everything in `P` marked below `n` has been drawn and conversely drawn nodes are marked. -/
structure Inv (P : Nat → Prop) (n : Nat) (s : Smp α) : Prop where
  ok : LogOk g s
  closed : Closed g kAll s.st.visited n
  done : ∀ q < n, P q → s.st.visited q = true → q ∈ drawn s
  marked : ∀ q ∈ drawn s, s.st.visited q = true

/-- Result of processing the nodes `l`. -/
def SmpRel (s : Smp α) (l : List Nat) : Except (Smp α) (Smp α) → Prop
  | .ok s' => LogOk g s' ∧ s'.st.visited = plus s.st.visited l ∧ (∀ q, q ∈ drawn s' ↔ q ∈ drawn s ∨ q ∈ l)
  | .error s' => LogBad g s' ∧ (∀ q ∈ drawn s', q ∈ drawn s ∨ q ∈ l) ∧
      (∀ q, s'.st.visited q = true → s.st.visited q = true ∨ q ∈ l)

theorem Inv.step {n : Nat} {s s' : Smp α} (h : Inv g P n s) (p : Nat) (hok : LogOk g s')
    (hv : s'.st.visited = plus s.st.visited (unfold g p)) (hd : ∀ q, q ∈ drawn s' ↔ q ∈ drawn s ∨ q ∈ unfold g p) :
    Inv g P n s' := by
  refine ⟨hok, ?_, ?_, ?_⟩
  · have := h.closed.plus p
    rw [filter_kAll] at this
    rwa [hv]
  · intro q hq hP hvq
    rw [hv] at hvq
    simp only [plus, Bool.or_eq_true, List.contains_eq_mem, decide_eq_true_eq] at hvq
    rw [hd]
    rcases hvq with hvq | hvq
    · exact .inr hvq
    · exact .inl (h.done q hq hP hvq)
  · intro q hq
    rw [hv]
    simp only [plus, Bool.or_eq_true, List.contains_eq_mem, decide_eq_true_eq]
    rcases (hd q).1 hq with hq | hq
    · exact .inr (h.marked q hq)
    · exact .inl hq

/-- The loop over inputs. -/
def sampleStep (p : Nat) (s : Smp α) : Except (Smp α) (Smp α) :=
  if s.st.visited p then .ok s else sampleNode g sm p { s with st := mark s.st p }

theorem sampleLoop (hP : ∀ p, P p → ∀ q ∈ unfold g p, P q) (n : Nat)
    (node : ∀ p < n, P p → ∀ s : Smp α, Inv g P p s → s.st.visited p = true → p ∉ drawn s →
      SmpRel g s (unfold g p) (sampleNode g sm p s)) :
    ∀ (l : List Nat), (∀ p ∈ l, p < n) → (∀ p ∈ l, P p) → ∀ s : Smp α, Inv g P n s →
      SmpRel g s (l.flatMap (unfold g)) (loopE (sampleStep g sm) l s) := by
  intro l
  induction l with
  | nil => intro _ _ s h; exact ⟨h.ok, by simp, by simp⟩
  | cons p l ih =>
    intro hl hlP s h
    have hp : p < n := hl p (by simp)
    have hpP : P p := hlP p (by simp)
    have hl' : ∀ q ∈ l, q < n := fun q hq => hl q (by simp [hq])
    have hlP' : ∀ q ∈ l, P q := fun q hq => hlP q (by simp [hq])
    rw [loopE, sampleStep]
    by_cases hv : s.st.visited p
    · have hall : ∀ x ∈ unfold g p, s.st.visited x = true := fun x hx => h.closed p hp hv x hx rfl
      have hdr : ∀ x ∈ unfold g p, x ∈ drawn s := fun x hx =>
        h.done x (lt_of_le_of_lt (le_of_mem_unfold g hx) hp) (hP p hpP x hx) (hall x hx)
      simp only [hv, if_true]
      have := ih hl' hlP' s h
      rw [List.flatMap_cons]
      cases hr : loopE (sampleStep g sm) l s with
      | ok s' =>
        rw [hr] at this
        obtain ⟨h1, h2, h3⟩ := this
        refine ⟨h1, ?_, ?_⟩
        · rw [plus_append, plus_eq_self hall, h2]
        · intro q
          rw [h3, List.mem_append]
          constructor
          · rintro (a | a)
            · exact .inl a
            · exact .inr (.inr a)
          · rintro (a | a | a)
            · exact .inl a
            · exact .inl (hdr q a)
            · exact .inr a
      | error s' =>
        rw [hr] at this
        obtain ⟨h1, h2, h3⟩ := this
        refine ⟨h1, fun q hq => ?_, fun q hq => ?_⟩
        · rcases h2 q hq with a | a
          · exact .inl a
          · exact .inr (List.mem_append_right _ a)
        · rcases h3 q hq with a | a
          · exact .inl a
          · exact .inr (List.mem_append_right _ a)
    · have hv' : s.st.visited p = false := by simpa using hv
      have hpd : p ∉ drawn s := fun hm => by rw [h.marked p hm] at hv'; simp at hv'
      have hinv : Inv g P p { s with st := mark s.st p } := by
        refine ⟨⟨h.ok.nodup, h.ok.topo, h.ok.allOk⟩, (h.closed.mono hp.le).markTop, ?_, ?_⟩
        · intro q hq hPq hvq
          simp only [mark_visited, Bool.or_eq_true, beq_iff_eq] at hvq
          rcases hvq with e | e
          · exact absurd e (ne_of_lt hq)
          · exact h.done q (hq.trans hp) hPq e
        · intro q hq
          simp only [mark_visited, Bool.or_eq_true]
          exact .inr (h.marked q hq)
      have hn := node p hp hpP _ hinv (by simp [mark_visited]) hpd
      simp only [hv', Bool.false_eq_true, if_false]
      rw [List.flatMap_cons]
      cases hr : sampleNode g sm p { s with st := mark s.st p } with
      | error s' =>
        rw [hr] at hn
        obtain ⟨h1, h2, h3⟩ := hn
        refine ⟨h1, fun q hq => ?_, fun q hq => ?_⟩
        · rcases h2 q hq with a | a
          · exact .inl a
          · exact .inr (List.mem_append_left _ a)
        · rcases h3 q hq with a | a
          · simp only [mark_visited, Bool.or_eq_true, beq_iff_eq] at a
            rcases a with a | a
            · exact .inr (List.mem_append_left _ (by rw [a]; exact mem_unfold_self g p))
            · exact .inl a
          · exact .inr (List.mem_append_left _ a)
      | ok s' =>
        rw [hr] at hn
        obtain ⟨h1, h2, h3⟩ := hn
        have h2' : s'.st.visited = plus s.st.visited (unfold g p) := by
          rw [h2]
          funext y
          simp only [plus, mark_visited]
          by_cases hy : y = p
          · simp [hy, mem_unfold_self g p]
          · simp [hy, beq_eq_decide]
        have hinv' : Inv g P n s' := h.step g p h1 h2' h3
        simp only
        have := ih hl' hlP' s' hinv'
        cases hr2 : loopE (sampleStep g sm) l s' with
        | ok s'' =>
          rw [hr2] at this
          obtain ⟨k1, k2, k3⟩ := this
          refine ⟨k1, ?_, ?_⟩
          · rw [k2, h2', plus_append]
          · intro q
            rw [k3, h3, List.mem_append, or_assoc]
            rfl
        | error s'' =>
          rw [hr2] at this
          obtain ⟨k1, k2, k3⟩ := this
          refine ⟨k1, fun q hq => ?_, fun q hq => ?_⟩
          · rcases k2 q hq with a | a
            · rcases (h3 q).1 a with a | a
              · exact .inl a
              · exact .inr (List.mem_append_left _ a)
            · exact .inr (List.mem_append_right _ a)
          · rcases k3 q hq with a | a
            · rw [h2'] at a
              simp only [plus, Bool.or_eq_true, List.contains_eq_mem, decide_eq_true_eq] at a
              rcases a with a | a
              · exact .inr (List.mem_append_left _ a)
              · exact .inl a
            · exact .inr (List.mem_append_right _ a)

theorem sampleNode_unfold (v : Nat) (s : Smp α) :
    sampleNode g sm v s = match loopE (sampleStep g sm) (g.parents v) s with
      | .error s => .error s
      | .ok s => match drawNode g sm v s with
        | (s, false) => .error s
        | (s, true) => .ok { s with st := mark s.st v } := by
  rw [sampleNode]
  rw [show (forMemE (g.parents v) (fun p _ (s : Smp α) =>
      if s.st.visited p then Except.ok s else sampleNode g sm p { s with st := mark s.st p }) s) = _ from
      forMemE_eq_loopE (g.parents v) (sampleStep g sm) s]
  rfl

theorem sampleNode_rel (hP : ∀ p, P p → ∀ q ∈ unfold g p, P q) (v : Nat) (hPv : P v) (s : Smp α) (h : Inv g P v s) (hv : s.st.visited v = true) (hd : v ∉ drawn s) :
    SmpRel g s (unfold g v) (sampleNode g sm v s) := by
  induction v using Nat.strong_induction_on generalizing s with
  | _ v ih =>
    have hloop := sampleLoop g sm hP v (fun p hp hPp s => ih p hp hPp s) (g.parents v)
      (fun p hp => g.lt_of_parent hp) (fun p hp => hP v hPv p (parent_mem_unfold hp)) s h
    rw [sampleNode_unfold, unfold_eq]
    cases hr : loopE (sampleStep g sm) (g.parents v) s with
    | error s' =>
      rw [hr] at hloop
      obtain ⟨h1, h2, h3⟩ := hloop
      refine ⟨h1, fun q hq => ?_, fun q hq => ?_⟩
      · rcases h2 q hq with a | a
        · exact .inl a
        · exact .inr (List.mem_cons_of_mem _ a)
      · rcases h3 q hq with a | a
        · exact .inl a
        · exact .inr (List.mem_cons_of_mem _ a)
    | ok s' =>
      rw [hr] at hloop
      obtain ⟨h1, h2, h3⟩ := hloop
      have hvd : v ∉ drawn s' := fun hm => by
        rcases (h3 v).1 hm with a | a
        · exact hd a
        · exact not_mem_flatMap_parents g v a
      have hpar : ∀ p ∈ g.parents v, p ∈ drawn s' := fun p hp =>
        (h3 p).2 (.inr (List.mem_flatMap.2 ⟨p, hp, mem_unfold_self g p⟩))
      have hnd : (drawn s' ++ [v]).Nodup := by
        rw [List.nodup_append]
        exact ⟨h1.nodup, by simp, by
          intro a ha b hb e
          simp at hb; subst hb; subst e; exact hvd ha⟩
      have htp : InputsFirst g (drawn s' ++ [v]) := h1.topo.snoc g hpar
      have hvis : (fun y => y == v || s'.st.visited y) = plus s.st.visited (v :: (g.parents v).flatMap (unfold g)) := by
        rw [h2, mark_plus_comm, plus_cons]
      simp only [drawNode]
      split
      · rename_i s'' heq
        split at heq
        · simp at heq
        · split at heq
          · simp only [Prod.mk.injEq, and_true] at heq
            subst heq
            refine ⟨⟨?_, ?_, ⟨s'.log, v, rfl, h1.allOk⟩⟩, ?_, ?_⟩
            · simpa [drawn] using hnd
            · simpa [drawn] using htp
            · intro q hq
              simp only [drawn, List.map_append, List.map_cons, List.map_nil, List.mem_append, List.mem_singleton] at hq
              rcases hq with a | a
              · rcases (h3 q).1 a with a | a
                · exact .inl a
                · exact .inr (List.mem_cons_of_mem _ a)
              · exact .inr (by rw [a]; exact List.mem_cons_self)
            · intro q hq
              simp only at hq
              rw [h2] at hq
              simp only [plus, Bool.or_eq_true, List.contains_eq_mem, decide_eq_true_eq] at hq
              rcases hq with a | a
              · exact .inr (List.mem_cons_of_mem _ a)
              · exact .inl a
          · simp at heq
      · rename_i s'' heq
        have hcommon : s''.log = s'.log ++ [(v, true)] ∧
            (fun y => y == v || s''.st.visited y) = (fun y => y == v || s'.st.visited y) := by
          split at heq
          · simp only [Prod.mk.injEq, and_true] at heq
            subst heq
            refine ⟨rfl, ?_⟩
            funext y; simp only [mark_visited]; cases (y == v) <;> rfl
          · split at heq
            · simp at heq
            · simp only [Prod.mk.injEq, and_true] at heq
              subst heq
              refine ⟨rfl, ?_⟩
              simp only
              split <;> rfl
        obtain ⟨hlog, hvis'⟩ := hcommon
        have hdr : drawn { s'' with st := mark s''.st v } = drawn s' ++ [v] := by
          simp [drawn, hlog]
        refine ⟨⟨by rw [hdr]; exact hnd, by rw [hdr]; exact htp, ?_⟩, ?_, ?_⟩
        · intro e he
          simp only [hlog, List.mem_append, List.mem_singleton] at he
          rcases he with a | a
          · exact h1.allOk e a
          · rw [a]
        · simp only [mark_visited]
          rw [hvis', hvis]
        · intro q
          rw [hdr, List.mem_append, List.mem_singleton, h3, List.mem_cons, or_assoc]
          constructor
          · rintro (a | a | a)
            · exact .inl a
            · exact .inr (.inr a)
            · exact .inr (.inl a)
          · rintro (a | a | a)
            · exact .inl a
            · exact .inr (.inr a)
            · exact .inr (.inl a)

theorem plus_unfold (vis : Nat → Bool) (r : Nat) :
    (fun y => y == r || plus vis ((g.parents r).flatMap (unfold g)) y) = plus vis (unfold g r) := by
  rw [mark_plus_comm, unfold_eq, plus_cons]

theorem sampleRoot_unfold (r : Nat) (s : Smp α) :
    sampleRoot g sm r s = match loopE (sampleStep g sm) (g.parents r) s with
      | .error s => .error s
      | .ok s => .ok { s with st := mark s.st r } := by
  rw [sampleRoot]
  rw [show (forMemE (g.parents r) (fun p _ (s : Smp α) =>
      if s.st.visited p then Except.ok s else sampleNode g sm p { s with st := mark s.st p }) s) = _ from
      forMemE_eq_loopE (g.parents r) (sampleStep g sm) s]
  rfl

theorem sampleRoots (all : List Nat) (hap : RootsApart g all) : ∀ (roots : List Nat), (∀ r ∈ roots, r ∈ all) →
    ∀ s : Smp α, (∀ n, Inv g (fun q => ∃ r ∈ all, Anc g q r) n s) →
    match loopE (sampleRoot g sm) roots s with
    | .ok s' => LogOk g s' ∧ (∀ q, q ∈ drawn s' ↔ q ∈ drawn s ∨ q ∈ above g roots) ∧
        s'.st.visited = plus s.st.visited (roots.flatMap (unfold g))
    | .error s' => LogBad g s' ∧ (∀ q ∈ drawn s', q ∈ drawn s ∨ q ∈ above g roots) ∧
        (∀ q, s'.st.visited q = true → s.st.visited q = true ∨ q ∈ roots.flatMap (unfold g)) := by
  intro roots
  have hP : ∀ p, (∃ r ∈ all, Anc g p r) → ∀ q ∈ unfold g p, ∃ r ∈ all, Anc g q r := by
    rintro p ⟨r, hr, hp⟩ q hq
    rcases (mem_unfold_iff g q p).1 hq with e | e
    · exact ⟨r, hr, e ▸ hp⟩
    · exact ⟨r, hr, e.trans hp⟩
  induction roots with
  | nil => intro _ s h; exact ⟨(h 0).ok, by simp [above], by simp⟩
  | cons r l ih =>
    intro hl s h
    have hr : r ∈ all := hl r (by simp)
    have hloop := sampleLoop g sm hP r (fun p _ hPp s => sampleNode_rel g sm hP p hPp s) (g.parents r)
      (fun p hp => g.lt_of_parent hp) (fun p hp => ⟨r, hr, .input hp⟩) s (h r)
    have ha : above g (r :: l) = (g.parents r).flatMap (unfold g) ++ above g l := rfl
    rw [loopE, sampleRoot_unfold, ha]
    cases hres : loopE (sampleStep g sm) (g.parents r) s with
    | error s' =>
      rw [hres] at hloop
      obtain ⟨h1, h2, h3⟩ := hloop
      refine ⟨h1, fun q hq => ?_, fun q hq => ?_⟩
      · rcases h2 q hq with a | a
        · exact .inl a
        · exact .inr (List.mem_append_left _ a)
      · rcases h3 q hq with a | a
        · exact .inl a
        · refine .inr ?_
          rw [List.flatMap_cons, unfold_eq]
          exact List.mem_append_left _ (List.mem_cons_of_mem _ a)
    | ok s' =>
      rw [hres] at hloop
      obtain ⟨h1, h2, h3⟩ := hloop
      have hv' : (mark s'.st r).visited = plus s.st.visited (unfold g r) := by
        rw [mark_visited, h2, plus_unfold]
      have hinv : ∀ n, Inv g (fun q => ∃ r ∈ all, Anc g q r) n { s' with st := mark s'.st r } := by
        intro n
        refine ⟨⟨h1.nodup, h1.topo, h1.allOk⟩, ?_, ?_, ?_⟩
        · have := (h n).closed.plus r
          rw [filter_kAll] at this
          simp only [hv']; exact this
        · rintro q hq ⟨r', hr', hqr⟩ hvq
          simp only [hv'] at hvq
          have hne : q ≠ r := fun e => hap q (e ▸ hr) r' hr' hqr
          rw [unfold_eq] at hvq
          simp only [plus, Bool.or_eq_true, List.contains_eq_mem, decide_eq_true_eq, List.mem_cons, hne,
            false_or] at hvq
          show q ∈ drawn s'
          rw [h3]
          rcases hvq with a | a
          · exact .inr a
          · exact .inl ((h (q+1)).done q (Nat.lt_succ_self q) ⟨r', hr', hqr⟩ a)
        · intro q hq
          have hq' : q ∈ drawn s' := hq
          simp only [hv']
          rw [h3] at hq'
          simp only [plus, Bool.or_eq_true, List.contains_eq_mem, decide_eq_true_eq]
          rcases hq' with a | a
          · exact .inr ((h 0).marked q a)
          · exact .inl (by rw [unfold_eq]; exact List.mem_cons_of_mem _ a)
      have := ih (fun q hq => hl q (by simp [hq])) _ hinv
      simp only
      have hdr : ∀ q, q ∈ drawn { s' with st := mark s'.st r } ↔ q ∈ drawn s' := fun q => Iff.rfl
      cases hres2 : loopE (sampleRoot g sm) l { s' with st := mark s'.st r } with
      | ok s'' =>
        rw [hres2] at this
        obtain ⟨k1, k2, k3⟩ := this
        refine ⟨k1, fun q => ?_, ?_⟩
        · rw [k2, hdr, h3, List.mem_append, or_assoc]
        · rw [k3]; simp only [hv']; rw [List.flatMap_cons, plus_append]
      | error s'' =>
        rw [hres2] at this
        obtain ⟨k1, k2, k3⟩ := this
        refine ⟨k1, fun q hq => ?_, fun q hq => ?_⟩
        · rcases k2 q hq with a | a
          · rw [hdr, h3] at a
            rcases a with a | a
            · exact .inl a
            · exact .inr (List.mem_append_left _ a)
          · exact .inr (List.mem_append_right _ a)
        · rw [List.flatMap_cons]
          rcases k3 q hq with a | a
          · simp only [hv', plus, Bool.or_eq_true, List.contains_eq_mem, decide_eq_true_eq] at a
            rcases a with a | a
            · exact .inr (List.mem_append_left _ a)
            · exact .inl a
          · exact .inr (List.mem_append_right _ a)

/-- One attempt on a clean graph. -/
theorem sampleAttempt_spec (roots : List Nat) (hap : RootsApart g roots) (s : Smp α) (h : Clean s.st) (hlog : s.log = []) :
    match sampleAttempt g sm roots s with
    | .ok s' => LogOk g s' ∧ (∀ q, q ∈ drawn s' ↔ q ∈ above g roots) ∧ Clean (resetFlags g roots s'.st)
    | .error s' => LogBad g s' ∧ (∀ q ∈ drawn s', q ∈ above g roots) ∧ Clean (resetFlags g roots s'.st) := by
  have hd : drawn s = [] := by simp [drawn, hlog]
  have hinv : ∀ n, Inv g (fun q => ∃ r ∈ roots, Anc g q r) n s := by
    intro n
    refine ⟨⟨by simp [hd], ?_, by simp [hlog]⟩, h.closed _ n, ?_, by simp [hd]⟩
    · intro a x b e; rw [hd] at e; simp at e
    · intro q _ _ hv; rw [h q] at hv; simp at hv
  have key := sampleRoots g sm roots hap roots (fun _ h => h) s hinv
  have e : sampleAttempt g sm roots s = loopE (sampleRoot g sm) roots s := forMemE_eq_loopE roots _ _
  rw [e]
  cases hr : loopE (sampleRoot g sm) roots s with
  | ok s' =>
    rw [hr] at key
    obtain ⟨h1, h2, h3⟩ := key
    refine ⟨h1, fun q => by rw [h2]; simp [hd], ?_⟩
    apply resetFlags_clean
    intro v hv
    rw [h3] at hv
    simpa [plus, h v] using hv
  | error s' =>
    rw [hr] at key
    obtain ⟨h1, h2, h3⟩ := key
    refine ⟨h1, fun q hq => by simpa [hd] using h2 q hq, ?_⟩
    apply resetFlags_clean
    intro v hv
    rcases h3 v hv with a | a
    · rw [h v] at a; simp at a
    · exact a

end Verif.Graph
