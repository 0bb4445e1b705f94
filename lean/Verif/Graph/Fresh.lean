import Verif.Graph.Replay
/-
C123: what a prior draw gives depends on the random generator only, not on the values that earlier work left in the graph.
-/
namespace Verif.Graph

variable {α : Type} (g : G) (sm : Sim α) {P : Nat → Prop}

/-- Specification: a node reads values of the nodes above it only (arithmetic nodes also read the inputs of their inputs), and its draws lie in its declared support. -/
structure Proper : Prop where
  reads : ∀ (vals vals' : Nat → Option α) (v t : Nat), (∀ q, Anc g q v → vals q = vals' q) → sm.sim vals v t = sm.sim vals' v t
  inside : ∀ (vals : Nat → Option α) (v t : Nat) (x : α), sm.sim vals v t = some x → sm.okOut vals v x = true

/-- The same position in the random stream, the same nodes drawn and marked, the same values of drawn nodes and constants. -/
structure Twin (s t : Smp α) : Prop where
  clock : s.clock = t.clock
  log : s.log = t.log
  visited : s.st.visited = t.st.visited
  value : ∀ q, (q, true) ∈ s.log ∨ g.kind q = .hyper → s.st.value q = t.st.value q

/-- Both succeed, or both fail, with twins. -/
inductive TwinE : Except (Smp α) (Smp α) → Except (Smp α) (Smp α) → Prop
  | ok {s t : Smp α} : Twin g s t → TwinE (.ok s) (.ok t)
  | error {s t : Smp α} : Twin g s t → TwinE (.error s) (.error t)

theorem Twin.mark {s t : Smp α} (h : Twin g s t) (v : Nat) : Twin g { s with st := mark s.st v } { t with st := mark t.st v } :=
  ⟨h.clock, h.log, by simp only [Graph.mark, h.visited], h.value⟩

theorem anc_drawn {l : List Nat} (h : InputsFirst g l) {p q : Nat} (hp : p ∈ l) (hq : Anc g q p) : q ∈ l := by
  induction hq with
  | input hq =>
    obtain ⟨a, b, rfl⟩ := List.append_of_mem hp
    exact List.mem_append_left _ (h a _ b rfl _ hq)
  | step _ hq ih =>
    apply ih
    obtain ⟨a, b, rfl⟩ := List.append_of_mem hp
    exact List.mem_append_left _ (h a _ b rfl _ hq)

theorem drawNode_twin (hsm : Proper g sm) (v : Nat) (s t : Smp α) (h : Twin g s t) (hin : ∀ q, Anc g q v → (q, true) ∈ s.log) :
    Twin g (drawNode g sm v s).1 (drawNode g sm v t).1 ∧ (drawNode g sm v s).2 = (drawNode g sm v t).2 := by
  have hsim : sm.sim s.st.value v s.clock = sm.sim t.st.value v t.clock := by
    rw [← h.clock]
    exact hsm.reads _ _ v _ fun q hq => h.value q (.inl (hin q hq))
  unfold drawNode
  by_cases hk : g.kind v = .hyper
  · rw [if_pos hk, if_pos hk]
    refine ⟨⟨h.clock, by simp only [h.log], by simp only [Graph.mark, h.visited], ?_⟩, rfl⟩
    intro q hq
    simp only [List.mem_append, List.mem_singleton, Prod.mk.injEq, and_true] at hq
    rcases hq with (a | a) | a
    · exact h.value q (.inl a)
    · exact h.value q (.inr (a ▸ hk))
    · exact h.value q (.inr a)
  · rw [if_neg hk, if_neg hk]
    cases hs : sm.sim s.st.value v s.clock with
    | none =>
      rw [hs] at hsim
      simp only [← hsim]
      refine ⟨⟨by simp only [h.clock], by simp only [h.log], h.visited, ?_⟩, trivial⟩
      intro q hq
      simp only [List.mem_append, List.mem_singleton, Prod.mk.injEq, reduceCtorEq, and_false, or_false, Bool.true_eq_false] at hq
      exact h.value q hq
    | some x =>
      rw [hs] at hsim
      simp only [← hsim]
      rw [if_pos (hsm.inside _ _ _ _ hs), if_pos (hsm.inside _ _ _ _ hsim.symm)]
      refine ⟨⟨by simp only [h.clock], by simp only [h.log], h.visited, ?_⟩, trivial⟩
      intro q hq
      simp only [List.mem_append, List.mem_singleton, Prod.mk.injEq, and_true] at hq
      simp only [store]
      by_cases e : q = v
      · simp [e]
      · rw [if_neg e, if_neg e]
        rcases hq with (a | a) | a
        · exact h.value q (.inl a)
        · exact absurd a e
        · exact h.value q (.inr a)

theorem mem_log_of_drawn {s : Smp α} (h : LogOk g s) {q : Nat} (hq : q ∈ drawn s) : (q, true) ∈ s.log := by
  obtain ⟨⟨a, b⟩, he, rfl⟩ := List.mem_map.mp hq
  have := h.allOk _ he
  simp only at this
  subst this
  exact he

theorem sampleLoop_twin (hP : ∀ p, P p → ∀ q ∈ unfold g p, P q) (n : Nat)
    (node : ∀ p < n, P p → ∀ s t : Smp α, Inv g P p s → s.st.visited p = true → p ∉ drawn s → Twin g s t → TwinE g (sampleNode g sm p s) (sampleNode g sm p t)) :
    ∀ (l : List Nat), (∀ p ∈ l, p < n) → (∀ p ∈ l, P p) → ∀ s t : Smp α, Inv g P n s → Twin g s t → TwinE g (loopE (sampleStep g sm) l s) (loopE (sampleStep g sm) l t) := by
  intro l
  induction l with
  | nil => intro _ _ s t _ ht; exact .ok ht
  | cons p l ih =>
    intro hl hlP s t h ht
    have hp : p < n := hl p (by simp)
    have hpP : P p := hlP p (by simp)
    have hl' : ∀ q ∈ l, q < n := fun q hq => hl q (by simp [hq])
    have hlP' : ∀ q ∈ l, P q := fun q hq => hlP q (by simp [hq])
    rw [loopE, loopE, sampleStep, sampleStep, ← ht.visited]
    by_cases hv : s.st.visited p
    · simp only [hv, if_true]
      exact ih hl' hlP' s t h ht
    · have hv' : s.st.visited p = false := by simpa using hv
      have hpd : p ∉ drawn s := fun hm => by rw [h.marked p hm] at hv'; simp at hv'
      have hinv : Inv g P p { s with st := mark s.st p } := by
        refine ⟨⟨h.ok.nodup, h.ok.topo, h.ok.allOk⟩, (h.closed.mono hp.le).markTop, ?_, ?_⟩
        · intro q hq hPq hvq
          simp only [mark_visited, Bool.or_eq_true, beq_iff_eq] at hvq
          rcases hvq with e | e
          · exact absurd e (ne_of_lt hq)
          · exact h.done q (hq.trans hp) hPq e
        · intro q hq
          simp only [mark_visited, Bool.or_eq_true]
          exact .inr (h.marked q hq)
      have hn := sampleNode_rel g sm hP p hpP _ hinv (by simp [mark_visited]) hpd
      have ht' := node p hp hpP _ _ hinv (by simp [mark_visited]) hpd (ht.mark g p)
      simp only [hv', Bool.false_eq_true, if_false]
      cases hr : sampleNode g sm p { s with st := mark s.st p } with
      | error s' =>
        rw [hr] at ht'
        cases hr' : sampleNode g sm p { t with st := mark t.st p } with
        | error t' => rw [hr'] at ht'; cases ht' with | error e => exact .error e
        | ok t' => rw [hr'] at ht'; cases ht'
      | ok s' =>
        rw [hr] at hn ht'
        cases hr' : sampleNode g sm p { t with st := mark t.st p } with
        | error t' => rw [hr'] at ht'; cases ht'
        | ok t' =>
          rw [hr'] at ht'
          obtain ⟨h1, h2, h3⟩ := hn
          have h2' : s'.st.visited = plus s.st.visited (unfold g p) := by
            rw [h2]
            funext y
            simp only [plus, mark_visited]
            by_cases hy : y = p
            · simp [hy, mem_unfold_self g p]
            · simp [hy, beq_eq_decide]
          cases ht' with
          | ok e => exact ih hl' hlP' s' t' (h.step g p h1 h2' h3) e

theorem sampleNode_twin (hsm : Proper g sm) (hP : ∀ p, P p → ∀ q ∈ unfold g p, P q) (v : Nat) (hPv : P v) (s t : Smp α) (h : Inv g P v s) (hv : s.st.visited v = true)
    (hd : v ∉ drawn s) (ht : Twin g s t) : TwinE g (sampleNode g sm v s) (sampleNode g sm v t) := by
  induction v using Nat.strong_induction_on generalizing s t with
  | _ v ih =>
    have hloop := sampleLoop g sm hP v (fun p _ hPp s => sampleNode_rel g sm hP p hPp s) (g.parents v)
      (fun p hp => g.lt_of_parent hp) (fun p hp => hP v hPv p (parent_mem_unfold hp)) s h
    have htw := sampleLoop_twin g sm hP v (fun p hp hPp s t hi hv hd ht => ih p hp hPp s t hi hv hd ht) (g.parents v)
      (fun p hp => g.lt_of_parent hp) (fun p hp => hP v hPv p (parent_mem_unfold hp)) s t h ht
    rw [sampleNode_unfold, sampleNode_unfold]
    cases hr : loopE (sampleStep g sm) (g.parents v) s with
    | error s' =>
      rw [hr] at htw
      cases hr' : loopE (sampleStep g sm) (g.parents v) t with
      | error t' => rw [hr'] at htw; cases htw with | error e => exact .error e
      | ok t' => rw [hr'] at htw; cases htw
    | ok s' =>
      rw [hr] at htw hloop
      cases hr' : loopE (sampleStep g sm) (g.parents v) t with
      | error t' => rw [hr'] at htw; cases htw
      | ok t' =>
        rw [hr'] at htw
        obtain ⟨h1, h2, h3⟩ := hloop
        have hpar : ∀ p ∈ g.parents v, p ∈ drawn s' := fun p hp => (h3 p).2 (.inr (List.mem_flatMap.mpr ⟨p, hp, mem_unfold_self g p⟩))
        have hanc : ∀ q, Anc g q v → (q, true) ∈ s'.log := by
          intro q hq
          apply mem_log_of_drawn g h1
          cases hq with
          | input hq => exact hpar q hq
          | step hq hp => exact anc_drawn g h1.topo (hpar _ hp) hq
        cases htw with
        | ok e =>
          obtain ⟨k1, k2⟩ := drawNode_twin g sm hsm v s' t' e hanc
          simp only
          rcases hds : drawNode g sm v s' with ⟨s2, b⟩
          rcases hdt : drawNode g sm v t' with ⟨t2, b'⟩
          rw [hds, hdt] at k1 k2
          simp only at k1 k2
          subst k2
          cases b with
          | false => exact .error k1
          | true => exact .ok (k1.mark g v)

theorem sampleRoots_twin (hsm : Proper g sm) (all : List Nat) (hap : RootsApart g all) : ∀ (roots : List Nat), (∀ r ∈ roots, r ∈ all) →
    ∀ s t : Smp α, (∀ n, Inv g (fun q => ∃ r ∈ all, Anc g q r) n s) → Twin g s t → TwinE g (loopE (sampleRoot g sm) roots s) (loopE (sampleRoot g sm) roots t) := by
  intro roots
  have hP : ∀ p, (∃ r ∈ all, Anc g p r) → ∀ q ∈ unfold g p, ∃ r ∈ all, Anc g q r := by
    rintro p ⟨r, hr, hp⟩ q hq
    rcases (mem_unfold_iff g q p).1 hq with e | e
    · exact ⟨r, hr, e ▸ hp⟩
    · exact ⟨r, hr, e.trans hp⟩
  induction roots with
  | nil => intro _ s t _ ht; exact .ok ht
  | cons r l ih =>
    intro hl s t h ht
    have hr : r ∈ all := hl r (by simp)
    have hloop := sampleLoop g sm hP r (fun p _ hPp s => sampleNode_rel g sm hP p hPp s) (g.parents r)
      (fun p hp => g.lt_of_parent hp) (fun p hp => ⟨r, hr, .input hp⟩) s (h r)
    have htw := sampleLoop_twin g sm hP r (fun p _ hPp s t => sampleNode_twin g sm hsm hP p hPp s t) (g.parents r)
      (fun p hp => g.lt_of_parent hp) (fun p hp => ⟨r, hr, .input hp⟩) s t (h r) ht
    rw [loopE, loopE, sampleRoot_unfold, sampleRoot_unfold]
    cases hres : loopE (sampleStep g sm) (g.parents r) s with
    | error s' =>
      rw [hres] at htw
      cases hres' : loopE (sampleStep g sm) (g.parents r) t with
      | error t' => rw [hres'] at htw; cases htw with | error e => exact .error e
      | ok t' => rw [hres'] at htw; cases htw
    | ok s' =>
      rw [hres] at hloop htw
      cases hres' : loopE (sampleStep g sm) (g.parents r) t with
      | error t' => rw [hres'] at htw; cases htw
      | ok t' =>
        rw [hres'] at htw
        obtain ⟨h1, h2, h3⟩ := hloop
        have hv' : (mark s'.st r).visited = plus s.st.visited (unfold g r) := by
          rw [mark_visited, h2, plus_unfold]
        have hinv : ∀ n, Inv g (fun q => ∃ r ∈ all, Anc g q r) n { s' with st := mark s'.st r } := by
          intro n
          refine ⟨⟨h1.nodup, h1.topo, h1.allOk⟩, ?_, ?_, ?_⟩
          · have := (h n).closed.plus r
            rw [filter_kAll] at this
            simp only [hv']; exact this
          · rintro q hq ⟨r', hr', hqr⟩ hvq
            simp only [hv'] at hvq
            have hne : q ≠ r := fun e => hap q (e ▸ hr) r' hr' hqr
            rw [unfold_eq] at hvq
            simp only [plus, Bool.or_eq_true, List.contains_eq_mem, decide_eq_true_eq, List.mem_cons, hne,
              false_or] at hvq
            show q ∈ drawn s'
            rw [h3]
            rcases hvq with a | a
            · exact .inr a
            · exact .inl ((h (q+1)).done q (Nat.lt_succ_self q) ⟨r', hr', hqr⟩ a)
          · intro q hq
            have hq' : q ∈ drawn s' := hq
            simp only [hv']
            rw [h3] at hq'
            simp only [plus, Bool.or_eq_true, List.contains_eq_mem, decide_eq_true_eq]
            rcases hq' with a | a
            · exact .inr ((h 0).marked q a)
            · exact .inl (by rw [unfold_eq]; exact List.mem_cons_of_mem _ a)
        cases htw with
        | ok e => exact ih (fun q hq => hl q (by simp [hq])) _ _ hinv (e.mark g r)

/-- One attempt on graphs that hold different values. -/
theorem sampleAttempt_twin (hsm : Proper g sm) (roots : List Nat) (hap : RootsApart g roots) (s t : Smp α) (h : Clean s.st) (hlog : s.log = []) (ht : Twin g s t) :
    TwinE g (sampleAttempt g sm roots s) (sampleAttempt g sm roots t) := by
  have hd : drawn s = [] := by simp [drawn, hlog]
  have hinv : ∀ n, Inv g (fun q => ∃ r ∈ roots, Anc g q r) n s := by
    intro n
    refine ⟨⟨by simp [hd], ?_, by simp [hlog]⟩, h.closed _ n, ?_, by simp [hd]⟩
    · intro a x b e; rw [hd] at e; simp at e
    · intro q _ _ hv; rw [h q] at hv; simp at hv
  have key := sampleRoots_twin g sm hsm roots hap roots (fun _ h => h) s t hinv ht
  have e : ∀ s : Smp α, sampleAttempt g sm roots s = loopE (sampleRoot g sm) roots s := fun s => forMemE_eq_loopE roots _ _
  rw [e, e]
  exact key

/-- C123: a prior draw does not depend on what the graph held before. Take two states of the graph with the same constants and the same position in the random stream: either both calls of `sample_from_prior`
give up, or both succeed, with the same values of all random variables above the roots, after the same draws and at the same position in the stream. -/
theorem C123_prior (hsm : Proper g sm) (roots : List Nat) (hap : RootsApart g roots) (n : Nat) (s t : Smp α) (hs : Clean s.st) (ht : Clean t.st) (hc : s.clock = t.clock)
    (hh : ∀ q, g.kind q = .hyper → s.st.value q = t.st.value q) :
    Option.Rel (fun s' t' => s'.clock = t'.clock ∧ s'.log = t'.log ∧ ∀ q, (∃ r ∈ roots, Anc g q r) ∨ g.kind q = .hyper → s'.st.value q = t'.st.value q)
      (sampleFromPrior g sm roots n s) (sampleFromPrior g sm roots n t) := by
  induction n generalizing s t with
  | zero => exact .none
  | succ n ih =>
    have htw : Twin g { s with log := [] } { t with log := [] } := by
      refine ⟨hc, rfl, ?_, ?_⟩
      · funext q; rw [hs q, ht q]
      · intro q hq
        rcases hq with a | a
        · simp at a
        · exact hh q a
    have key := sampleAttempt_twin g sm hsm roots hap { s with log := [] } { t with log := [] } hs rfl htw
    have hsp := sampleAttempt_spec g sm roots hap { s with log := [] } hs rfl
    have htp := sampleAttempt_spec g sm roots hap { t with log := [] } ht rfl
    rw [sampleFromPrior, sampleFromPrior]
    cases hr : sampleAttempt g sm roots { s with log := [] } with
    | ok s1 =>
      rw [hr] at key hsp
      cases hr' : sampleAttempt g sm roots { t with log := [] } with
      | error t1 => rw [hr'] at key; cases key
      | ok t1 =>
        rw [hr'] at key
        cases key with
        | ok e =>
          refine .some ⟨e.clock, e.log, fun q hq => ?_⟩
          simp only [resetFlags_eq]
          apply e.value
          rcases hq with ⟨r, hr, hq⟩ | hq
          · refine .inl (mem_log_of_drawn g hsp.1 ((hsp.2.1 q).2 ?_))
            exact (mem_above g roots q).2 ⟨r, hr, hq⟩
          · exact .inr hq
    | error s1 =>
      rw [hr] at key hsp
      cases hr' : sampleAttempt g sm roots { t with log := [] } with
      | ok t1 => rw [hr'] at key; cases key
      | error t1 =>
        rw [hr'] at key htp
        cases key with
        | error e =>
          apply ih
          · exact hsp.2.2
          · exact htp.2.2
          · exact e.clock
          · intro q hq
            simp only [resetFlags_eq]
            exact e.value q (.inr hq)

/-- A random variable with one constant above it and one root below it. -/
def lineG : G where
  kind v := if v = 0 then .hyper else .cont
  parents v := if v = 1 then [0] else if v = 2 then [1] else []
  lt_of_parent {v p} h := by
    split at h
    · simp only [List.mem_singleton] at h; omega
    · split at h
      · simp only [List.mem_singleton] at h; omega
      · simp at h
  hyper_leaf {v} h := by
    by_cases e : v = 0
    · subst e; rfl
    · simp [e] at h

/-- The hypotheses can be met: a variable drawn around its constant. -/
example : Proper lineG ⟨fun vals v t => if v = 1 then (vals 0).map (· + (t : Int)) else none, fun _ _ _ => true⟩ := by
  refine ⟨?_, fun _ _ _ _ _ => rfl⟩
  intro vals vals' v t h
  by_cases e : v = 1
  · subst e
    simp only [if_true]
    rw [h 0 (.input (by simp [lineG]))]
  · simp [e]

/-- C123, violated part: if a draw can fall outside of the declared support it is not stored, so the value that earlier work left in the graph comes out as a draw from the prior. -/
theorem C123_stale_violated : ∃ (g : G) (sm : Sim Int) (roots : List Nat), RootsApart g roots ∧ ∀ left : Int,
    ∃ s', sampleFromPrior g sm roots 1 ⟨⟨fun _ => false, fun _ => false, fun v => if v = 1 then some left else some 0⟩, 0, []⟩ = some s' ∧ s'.st.value 1 = some left := by
  refine ⟨lineG, ⟨fun _ _ _ => some 5, fun _ _ _ => false⟩, [2], ?_, ?_⟩
  · intro r hr r' hr' h
    simp only [List.mem_singleton] at hr hr'
    subst hr hr'
    exact absurd h.lt (lt_irrefl _)
  · intro left
    have k0 : lineG.kind 0 = .hyper := rfl
    have k1 : lineG.kind 1 = .cont := rfl
    have p2 : lineG.parents 2 = [1] := rfl
    have p1 : lineG.parents 1 = [0] := rfl
    have p0 : lineG.parents 0 = [] := rfl
    rw [sampleFromPrior]
    simp only [sampleAttempt, forMemE_eq_loopE, loopE, sampleRoot_unfold, sampleStep, sampleNode_unfold, p2, p1, p0, drawNode, k0, k1, mark]
    simp [resetFlags_eq]

end Verif.Graph
