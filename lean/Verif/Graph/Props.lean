import Verif.Graph.History
import Verif.Graph.Examples
/-
Property theorems C01 - C09 and C11 (C10 is in `Verif.Kernel.Props`).

Vocabulary of the statements (all in `Verif.Graph.Spec`): `Anc g a v` (a is a direct or indirect input of v),
`RootsApart` (no root is an input of a root), `Clean` (no operation pending), `order` (free random variables above the
roots, by first occurrence when the inputs are read depth first from left to right).
-/
namespace Verif.Graph

variable {α M : Type} [CommMonoid M] (g : G)

/-! ### C01 -/

/-- C01. If `set_parameters(ps)` succeeds with next index `k`, then `get_parameters()` returns exactly the first `k`
entries of `ps`, none of them missing, and `k` is the number of free random variables above the roots. -/
theorem C01_set_then_get (roots : List Nat) (hap : RootsApart g roots) (s : St α) (hs : Clean s)
    (chk : (Nat → Option α) → Nat → α → Verdict) (ps : List α) (k : Nat)
    (hok : (setParameters g chk roots ps s).2 = .ok k) :
    (getParameters g roots (setParameters g chk roots ps s).1).2 = (ps.take k).map some ∧ k ≤ ps.length ∧
    ∃ free : List Nat, free.Nodup ∧ (∀ v, v ∈ free ↔ (g.kind v).isFree = true ∧ ∃ r ∈ roots, Anc g v r) ∧
      free.length = k := by
  have key := setParameters_eq g chk ps roots hap s hs
  cases ha : assignInOrder chk ps (order g roots) 0 s.value with
  | error e =>
    rw [ha] at key
    rcases e with ⟨i | _, val⟩
    · simp only [hok] at key; exact absurd key.1 (by simp)
    · simp only [hok] at key; exact absurd key.1 (by simp)
  | ok r =>
    obtain ⟨val, k'⟩ := r
    rw [ha] at key
    simp only [hok, Except.ok.injEq] at key
    obtain ⟨rfl, hval, hcl⟩ := key
    obtain ⟨h1, h2, h3, -⟩ := assign_ok chk ps (order g roots) 0 s.value val k (order_nodup g roots) ha
    refine ⟨?_, h2 (Nat.zero_le _), order g roots, order_nodup g roots, mem_order g roots, by omega⟩
    rw [(getParameters_eq g roots _ hcl).1, hval, h3]
    simp [h1]

/-- The hypotheses of C01 hold for the seven-node graph with two roots, shared inputs and an arithmetic node. -/
example : ∃ s' : St Int, RootsApart exG [5, 6] ∧ Clean (St.blank : St Int) ∧
    setParameters exG (fun _ _ _ => .accept) [5, 6] [10, 20, 30, 40] (St.blank : St Int) = (s', .ok 3) := by
  have key := setParameters_eq exG (fun _ _ _ => .accept) [10, 20, 30, 40] [5, 6] exG_apart (St.blank : St Int) blank_clean
  rw [exG_order] at key
  simp [assignInOrder] at key
  exact ⟨_, exG_apart, blank_clean, Prod.ext rfl key.1⟩

/-- Outside the hypothesis: if a root is an input of a later root (root 0 is the input of root 1),
`set_parameters` skips it and `get_parameters` returns it. -/
theorem C01_nested_roots_violated :
    (setParameters nestedG (fun _ _ _ => .accept) [0, 1] [7] (St.blank : St Int)).2 = .ok 0 ∧
    (getParameters nestedG [0, 1]
      (setParameters nestedG (fun _ _ _ => .accept) [0, 1] [7] (St.blank : St Int)).1).2 = [none] := by
  have h0 : nestedG.parents 0 = [] := rfl
  have h1 : nestedG.parents 1 = [0] := rfl
  have hk : nestedG.kind 0 = .cont := rfl
  constructor
  · simp [setParameters, forMemE, setRoot_unfold, loopE, setStep, h0, h1, mark, St.blank]
  · simp [setParameters, forMemE, forMem, setRoot_unfold, getRoot_unfold, getNode_unfold, loopE, setStep, getStep,
      h0, h1, hk, mark, St.blank, getParameters, resetFlags_eq, unfold_eq, Kind.isFree]

/-! ### C02 -/

/-- C02. Reading, setting, the name mapping and the kernel mapping all list the same nodes in the same order;
that list contains every free random variable above the roots exactly once and nothing else (no root, no
hyperparameter, no arithmetic node). -/
theorem C02_orders_agree (roots : List Nat) (hap : RootsApart g roots) (s : St α) (hs : Clean s) :
    (order g roots).Nodup ∧
    (∀ v, v ∈ order g roots ↔ (g.kind v = .cont ∨ g.kind v = .disc) ∧ ∃ r ∈ roots, Anc g v r) ∧
    (∀ r ∈ roots, r ∉ order g roots) ∧
    (getParameters g roots s).2 = (order g roots).map s.value ∧
    (getMapping g roots s).2 = ((order g roots).zipIdx, (order g roots).length) ∧
    (mgetMapping g roots s).2 = ((order g roots).zipIdx, (order g roots).length) ∧
    (∀ (chk : (Nat → Option α) → Nat → α → Verdict) (ps : List α) (k : Nat),
      (setParameters g chk roots ps s).2 = .ok k →
      k = (order g roots).length ∧
      ∀ i (hi : i < (order g roots).length),
        (setParameters g chk roots ps s).1.value (order g roots)[i] = ps[i]? ∧ i < ps.length) := by
  refine ⟨order_nodup g roots, ?_, ?_, (getParameters_eq g roots s hs).1, (getMapping_eq g roots hap s hs).1,
    (mgetMapping_eq g roots hap s hs).1, ?_⟩
  · intro v
    rw [mem_order]
    have : (g.kind v).isFree = true ↔ g.kind v = .cont ∨ g.kind v = .disc := by cases g.kind v <;> simp [Kind.isFree]
    rw [this]
  · intro r hr hm
    obtain ⟨-, r', hr', h⟩ := (mem_order g roots r).1 hm
    exact hap r hr r' hr' h
  · intro chk ps k hok
    have key := setParameters_eq g chk ps roots hap s hs
    cases ha : assignInOrder chk ps (order g roots) 0 s.value with
    | error e =>
      rw [ha] at key
      rcases e with ⟨i | _, val⟩
      · simp only [hok] at key; exact absurd key.1 (by simp)
      · simp only [hok] at key; exact absurd key.1 (by simp)
    | ok r =>
      obtain ⟨val, k'⟩ := r
      rw [ha] at key
      simp only [hok, Except.ok.injEq] at key
      obtain ⟨rfl, hval, -⟩ := key
      obtain ⟨h1, h2, h3, -⟩ := assign_ok chk ps (order g roots) 0 s.value val k (order_nodup g roots) ha
      refine ⟨by omega, fun i hi => ?_⟩
      have hk := h2 (Nat.zero_le _)
      have hi' : i < ps.length := by omega
      refine ⟨?_, hi'⟩
      have := congrArg (fun l => l[i]?) h3
      simp only [List.drop_zero] at this
      rw [List.getElem?_map, List.getElem?_map, List.getElem?_take, List.getElem?_eq_getElem hi, if_pos hi,
        List.getElem?_eq_getElem hi'] at this
      simp only [Option.map_some, Option.some.injEq] at this
      rw [hval, this, List.getElem?_eq_getElem hi']

example : order exG [5, 6] = [4, 1, 2] ∧ RootsApart exG [5, 6] ∧ Clean (St.blank : St Int) :=
  ⟨exG_order, exG_apart, blank_clean⟩

/-! ### C03 -/

/-- C03. After any finite history of calls that returned (sampling, reading, setting with success or rejection,
both mappings, column selection, re-ordering, prior density), no traversal mark is pending, and whatever is called next
behaves as on a fresh graph (no marks, no remembered densities) holding the same values: same result, same values
stored afterwards. -/
theorem C03_no_residue (nd : Nodes α M) (roots : List Nat) (hap : RootsApart g roots) (s s' : St α) (hs : Clean s)
    (hist : Reach g nd roots s s') :
    Clean s' ∧ ∀ c : Call α, (run g nd roots s' c).2.returned →
      (run g nd roots s' c).2 = (run g nd roots ⟨fun _ => false, fun _ => false, s'.value⟩ c).2 ∧
      (run g nd roots s' c).1.value = (run g nd roots ⟨fun _ => false, fun _ => false, s'.value⟩ c).1.value := by
  have hcl : Clean s' := by
    induction hist with
    | start => exact hs
    | call c h hr ih => exact (run_congr g nd roots hap _ _ ih ih rfl c hr).2.2
  refine ⟨hcl, fun c hr => ?_⟩
  have := run_congr g nd roots hap s' ⟨fun _ => false, fun _ => false, s'.value⟩ hcl (fun _ => rfl) rfl c hr
  exact ⟨this.1, this.2.1⟩

/-- A history with a rejected and an accepted `set_parameters`, followed by a read. -/
example : ∃ s' : St Int, Reach (M := Int) exG
    ⟨fun _ v x => if v = 1 ∧ x < 0 then .reject else .accept, fun _ _ _ => 1, ⟨fun _ _ _ => some 0, fun _ _ _ => true⟩⟩
    [5, 6] St.blank s' ∧ s'.value 1 = some 20 := by
  refine ⟨_, (((Reach.start).call (.set [1, -2, 3]) ?_).call (.set [10, 20, 30]) ?_).call .get ?_, ?_⟩
  all_goals
    have k1 := setParameters_eq exG (fun _ v x => if v = 1 ∧ x < 0 then Verdict.reject else .accept) [1, -2, 3] [5, 6]
      exG_apart (St.blank : St Int) blank_clean
    rw [exG_order] at k1
    simp [assignInOrder] at k1
  · simp only [run, k1.1]; trivial
  all_goals
    have k2 := setParameters_eq exG (fun _ v x => if v = 1 ∧ x < 0 then Verdict.reject else .accept) [10, 20, 30] [5, 6]
      exG_apart _ k1.2.2
    rw [exG_order] at k2
    simp [assignInOrder] at k2
  · simp only [run, k2.1]; trivial
  · trivial
  · have := (getParameters_eq exG [5, 6] _ k2.2.2).2.2
    simp only [run]
    rw [this, k2.2.1]
    simp

/-- The qualification "that returned" is needed: a vector that is too short makes `set_parameters` raise, the marks
stay, and the next `get_parameters` loses the parameter that had been set. -/
theorem C03_after_exception_violated :
    ∃ s' : St Int, setParameters chainG (fun _ _ _ => .accept) [2] [7] (St.blank : St Int) = (s', .error .raised) ∧
      s'.value 1 = some 7 ∧ (getParameters chainG [2] s').2 = [] := by
  have h2 : chainG.parents 2 = [1] := rfl
  have h1 : chainG.parents 1 = [0] := rfl
  have h0 : chainG.parents 0 = [] := rfl
  have k1 : chainG.kind 1 = .cont := rfl
  have k0 : chainG.kind 0 = .cont := rfl
  refine ⟨_, Prod.ext rfl ?_, ?_, ?_⟩
  · simp [setParameters, forMemE, setRoot_unfold, setNode_unfold, loopE, setStep, h2, h1, h0, k1, k0, mark, store,
      St.blank]
  · simp [setParameters, forMemE, setRoot_unfold, setNode_unfold, loopE, setStep, h2, h1, h0, k1, k0, mark, store,
      St.blank]
  · simp [setParameters, forMemE, forMem, setRoot_unfold, setNode_unfold, getRoot_unfold, getNode_unfold, loopE,
      setStep, getStep, h2, h1, h0, k1, k0, mark, store, St.blank, getParameters]

/-! ### C04 -/

/-- The draws of every attempt of a call of `sample_from_prior` (at most `n` attempts), in order, and whether the last
attempt succeeded. Same recursion as `sampleFromPrior`, keeping the logs. -/
def attemptLogs (sm : Sim α) (roots : List Nat) : Nat → Smp α → List (List (Nat × Bool)) × Bool
  | 0, _ => ([], false)
  | n + 1, s =>
    match sampleAttempt g sm roots { s with log := [] } with
    | .ok s => ([s.log], true)
    | .error s =>
      let (rest, ok) := attemptLogs sm roots n { s with st := resetFlags g roots s.st }
      (s.log :: rest, ok)

/-- C04. In every attempt each node is drawn at most once, only after all of its inputs, and only nodes strictly above
the roots are drawn (so no root is run); every attempt but the successful one ends at its first failed draw.
If the call succeeds, its last attempt drew every node above the roots. -/
theorem C04_prior_draws (sm : Sim α) (roots : List Nat) (hap : RootsApart g roots) (n : Nat) (s : Smp α)
    (hs : Clean s.st) :
    (∀ l ∈ (attemptLogs g sm roots n s).1,
      (l.map Prod.fst).Nodup ∧
      (∀ before v after, l.map Prod.fst = before ++ v :: after → ∀ p ∈ g.parents v, p ∈ before) ∧
      (∀ v ∈ l.map Prod.fst, (∃ r ∈ roots, Anc g v r) ∧ v ∉ roots) ∧
      (∀ before e after, l = before ++ e :: after → e.2 = false → after = [])) ∧
    ((attemptLogs g sm roots n s).2 = true → ∃ failed last,
      (attemptLogs g sm roots n s).1 = failed ++ [last] ∧
      (∀ v, v ∈ last.map Prod.fst ↔ ∃ r ∈ roots, Anc g v r) ∧ (∀ e ∈ last, e.2 = true) ∧
      (∀ l ∈ failed, ∃ e ∈ l, e.2 = false) ∧
      ∃ s', sampleFromPrior g sm roots n s = some s' ∧ s'.log = last) := by
  have hroot : ∀ v, (∃ r ∈ roots, Anc g v r) → v ∉ roots := fun v ⟨r, hr, h⟩ hv => hap v hv r hr h
  induction n generalizing s with
  | zero => simp [attemptLogs]
  | succ n ih =>
    have key := sampleAttempt_spec g sm roots hap { s with log := [] } hs rfl
    simp only [attemptLogs, sampleFromPrior]
    cases hr : sampleAttempt g sm roots { s with log := [] } with
    | ok s1 =>
      rw [hr] at key
      obtain ⟨k1, k2, k3⟩ := key
      constructor
      · intro l hl
        simp only [List.mem_singleton] at hl
        subst hl
        refine ⟨k1.nodup, k1.topo, fun v hv => ?_, fun b e a he hf => ?_⟩
        · have := (mem_above g roots v).1 ((k2 v).1 hv)
          exact ⟨this, hroot v this⟩
        · have := k1.allOk e (by rw [he]; simp)
          rw [this] at hf; simp at hf
      · intro _
        refine ⟨[], s1.log, rfl, fun v => ?_, k1.allOk, by simp, _, rfl, rfl⟩
        rw [← mem_above]; exact k2 v
    | error s1 =>
      rw [hr] at key
      obtain ⟨k1, k2, k3⟩ := key
      obtain ⟨i1, i2⟩ := ih { s1 with st := resetFlags g roots s1.st } k3
      constructor
      · intro l hl
        simp only [List.mem_cons] at hl
        rcases hl with rfl | hl
        · refine ⟨k1.nodup, k1.topo, fun v hv => ?_, fun b e a he hf => ?_⟩
          · have := (mem_above g roots v).1 (k2 v hv)
            exact ⟨this, hroot v this⟩
          · obtain ⟨l', v, hl', hall⟩ := k1.lastBad
            rw [hl'] at he
            rcases List.append_eq_append_iff.1 he with ⟨c, c1, c2⟩ | ⟨c, c1, c2⟩
            · cases c with
              | nil => simp at c2; exact c2.2
              | cons z c => simp at c2
            · cases c with
              | nil => simp at c2; exact c2.2
              | cons z c =>
                simp only [List.cons_append, List.cons.injEq] at c2
                obtain ⟨rfl, c2⟩ := c2
                have := hall e (by rw [c1]; simp)
                rw [this] at hf; simp at hf
        · exact i1 l hl
      · intro hok
        obtain ⟨failed, last, j1, j2, j3, j4, s', j5, j6⟩ := i2 hok
        refine ⟨s1.log :: failed, last, by rw [List.cons_append, ← j1], j2, j3, ?_, s', j5, j6⟩
        intro l hl
        rcases List.mem_cons.1 hl with rfl | hl
        · obtain ⟨l', v, hl', -⟩ := k1.lastBad
          exact ⟨(v, false), by rw [hl']; simp, rfl⟩
        · exact j4 l hl

/-- A first attempt that fails at its second draw and a successful second attempt on `chainG`. -/
example : attemptLogs chainG ⟨fun _ _ t => if t = 1 then none else some (0 : Int), fun _ _ _ => true⟩ [2] 5
    ⟨St.blank, 0, []⟩ = ([[(0, true), (1, false)], [(0, true), (1, true)]], true) := by
  have h2 : chainG.parents 2 = [1] := rfl
  have h1 : chainG.parents 1 = [0] := rfl
  have h0 : chainG.parents 0 = [] := rfl
  have k1 : chainG.kind 1 = .cont := rfl
  have k0 : chainG.kind 0 = .cont := rfl
  have hr : ∀ s : St Int, resetFlags chainG [2] s =
      { s with visited := fun y => !([2, 1, 0].contains y) && s.visited y,
               memo := fun y => !([2, 1, 0].contains y) && s.memo y } := by
    intro s; rw [resetFlags_eq]; simp [unfold_eq, h2, h1, h0]
  simp [attemptLogs, sampleAttempt, sampleRoot_unfold, sampleNode_unfold, loopE, sampleStep, forMemE, h2, h1, h0, k1,
    k0, drawNode, mark, store, St.blank, hr]

/-! ### C05 -/

/-- C05 fails: on the two-parameter chain the first entry is stored before the second one is rejected. -/
theorem C05_rejected_leaves_values_violated :
    ∃ (s : St Int) (chk : (Nat → Option Int) → Nat → Int → Verdict) (ps : List Int), Clean s ∧
      (setParameters chainG chk [2] ps s).2 = .error (.rejected 1) ∧
      (getParameters chainG [2] s).2 = [some 1, some 2] ∧
      (getParameters chainG [2] (setParameters chainG chk [2] ps s).1).2 = [some 5, some 2] := by
  let s : St Int := ⟨fun _ => false, fun _ => false, fun v => if v = 1 then some 1 else if v = 0 then some 2 else none⟩
  have hs : Clean s := fun _ => rfl
  refine ⟨s, fun _ v x => if v = 0 ∧ x < 0 then .reject else .accept, [5, -1], hs, ?_⟩
  have key := setParameters_eq chainG (fun _ v x => if v = 0 ∧ x < 0 then Verdict.reject else .accept) [5, -1] [2]
    chainG_apart s hs
  rw [chainG_order] at key
  simp [assignInOrder] at key
  obtain ⟨k1, k2, k3⟩ := key
  refine ⟨k1, ?_, ?_⟩
  · rw [(getParameters_eq chainG [2] s hs).1, chainG_order]; simp [s]
  · rw [(getParameters_eq chainG [2] _ k3).1, chainG_order, k2]; simp [s]

/-- C05, what does hold: a rejection at index `k` has stored the first `k` entries of the vector in the first `k`
parameters and nothing else; in particular a vector rejected at its first entry changes nothing.
Missing: the stored values are not restored when the rejection comes later. -/
theorem C05_rejected_leaves_values_partial (roots : List Nat) (hap : RootsApart g roots) (s : St α) (hs : Clean s)
    (chk : (Nat → Option α) → Nat → α → Verdict) (ps : List α) (k : Nat)
    (hrej : (setParameters g chk roots ps s).2 = .error (.rejected k)) :
    k < (order g roots).length ∧
    (getParameters g roots (setParameters g chk roots ps s).1).2 =
      (ps.take k).map some ++ ((getParameters g roots s).2.drop k) ∧
    (∀ v, v ∉ (order g roots).take k → (setParameters g chk roots ps s).1.value v = s.value v) := by
  have key := setParameters_eq g chk ps roots hap s hs
  cases ha : assignInOrder chk ps (order g roots) 0 s.value with
  | ok r =>
    obtain ⟨val, k'⟩ := r
    rw [ha] at key
    simp only [hrej] at key; exact absurd key.1 (by simp)
  | error e =>
    rw [ha] at key
    rcases e with ⟨i | _, val⟩
    · simp only [hrej, Except.error.injEq, SetFail.rejected.injEq] at key
      obtain ⟨rfl, hval, hcl⟩ := key
      obtain ⟨k', h1, hk, h2, h3, -⟩ := assign_rejected chk ps (order g roots) 0 s.value val k (order_nodup g roots) ha
      obtain rfl : k = k' := by omega
      refine ⟨hk, ?_, fun v hv => by rw [hval]; exact h3 v hv⟩
      rw [(getParameters_eq g roots _ hcl).1, (getParameters_eq g roots s hs).1, hval]
      conv_lhs => rw [← List.take_append_drop k (order g roots), List.map_append, h2]
      rw [List.drop_zero, ← List.map_drop]
      congr 1
      refine List.map_congr_left fun v hv => h3 v fun hm => ?_
      have := order_nodup g roots
      rw [← List.take_append_drop k (order g roots), List.nodup_append] at this
      exact this.2.2 v hm v hv rfl
    · simp only [hrej] at key; exact absurd key.1 (by simp)

/-! ### C06 -/

/-- C06 fails: the same vector, inside the joint support, is accepted or rejected depending on the value stored
earlier. Node 1 is a uniform prior on `[0, node 0]`; its check reads the stored value of node 0, and node 1 is set
first. -/
theorem C06_acceptance_history_violated :
    let chk : (Nat → Option Int) → Nat → Int → Verdict := fun val v x =>
      if v = 1 then (match val 0 with | some u => if 0 ≤ x ∧ x ≤ u then .accept else .reject | none => .raise)
      else .accept
    ∃ s t : St Int, Clean s ∧ Clean t ∧
      (setParameters chainG chk [2] [5, 10] s).2 = .error (.rejected 0) ∧
      (setParameters chainG chk [2] [5, 10] t).2 = .ok 2 := by
  intro chk
  let st : Int → St Int := fun x => ⟨fun _ => false, fun _ => false, fun v => if v = 0 then some x else none⟩
  have hc : ∀ x, Clean (st x) := fun _ _ => rfl
  refine ⟨st 1, st 10, hc _, hc _, ?_, ?_⟩
  · have key := setParameters_eq chainG chk [5, 10] [2] chainG_apart (st 1) (hc _)
    rw [chainG_order] at key
    simp [assignInOrder, chk, st] at key
    exact key.1
  · have key := setParameters_eq chainG chk [5, 10] [2] chainG_apart (st 10) (hc _)
    rw [chainG_order] at key
    simp [assignInOrder, chk, st] at key
    exact key.1

/-- C06, what the code does: a long enough vector is accepted exactly when every entry passes the check of its parameter against the values stored at that moment, which are the entries of the vector
for the parameters before it in the order and the values from before the call for all other nodes. -/
theorem C06_exact (roots : List Nat) (hap : RootsApart g roots) (s : St α) (hs : Clean s)
    (chk : (Nat → Option α) → Nat → α → Verdict) (ps : List α) (hlen : (order g roots).length ≤ ps.length) :
    (∃ k, (setParameters g chk roots ps s).2 = .ok k) ↔
      ∀ i (hi : i < (order g roots).length),
        chk (fun v => if v ∈ (order g roots).take i then ps[(order g roots).idxOf v]? else s.value v) (order g roots)[i] (ps[i]'(by omega)) = .accept := by
  have key := setParameters_eq g chk ps roots hap s hs
  have hr : (∃ k, (setParameters g chk roots ps s).2 = .ok k) ↔ ∃ r, assignInOrder chk ps (order g roots) 0 s.value = .ok r := by
    cases ha : assignInOrder chk ps (order g roots) 0 s.value with
    | ok r =>
      obtain ⟨val, k⟩ := r
      rw [ha] at key
      exact ⟨fun _ => ⟨_, rfl⟩, fun _ => ⟨k, key.1⟩⟩
    | error e =>
      rw [ha] at key
      rcases e with ⟨i | _, val⟩ <;> (simp only at key; rw [key.1]; simp)
  rw [hr]
  have gen : ∀ (rest done : List Nat) (val : Nat → Option α), order g roots = done ++ rest →
      (∀ v, val v = if v ∈ done then ps[(order g roots).idxOf v]? else s.value v) →
      ((∃ r, assignInOrder chk ps rest done.length val = .ok r) ↔ ∀ i (hi : i < (order g roots).length), done.length ≤ i →
        chk (fun v => if v ∈ (order g roots).take i then ps[(order g roots).idxOf v]? else s.value v) (order g roots)[i] (ps[i]'(by omega)) = .accept) := by
    intro rest
    induction rest with
    | nil =>
      intro done val he hv
      have hl : (order g roots).length = done.length := by rw [he]; simp
      exact ⟨fun _ i hi h => by omega, fun _ => ⟨_, rfl⟩⟩
    | cons v rest ih =>
      intro done val he hv
      have hl : (order g roots).length = done.length + (rest.length + 1) := by rw [he]; simp
      have hlt : done.length < (order g roots).length := by omega
      have hnd := order_nodup g roots
      have hget : (order g roots)[done.length] = v := by
        simp only [he]
        rw [List.getElem_append_right (le_refl _)]
        simp
      have htake : (order g roots).take done.length = done := by rw [he]; simp
      have hval : val = fun v => if v ∈ (order g roots).take done.length then ps[(order g roots).idxOf v]? else s.value v := by
        funext w; rw [hv w, htake]
      rw [assignInOrder, List.getElem?_eq_getElem (show done.length < ps.length by omega)]
      simp only
      have split : (∀ i (hi : i < (order g roots).length), done.length ≤ i →
          chk (fun v => if v ∈ (order g roots).take i then ps[(order g roots).idxOf v]? else s.value v) (order g roots)[i] (ps[i]'(by omega)) = .accept) ↔
          chk val v (ps[done.length]'(by omega)) = .accept ∧ ∀ i (hi : i < (order g roots).length), done.length + 1 ≤ i →
          chk (fun v => if v ∈ (order g roots).take i then ps[(order g roots).idxOf v]? else s.value v) (order g roots)[i] (ps[i]'(by omega)) = .accept := by
        constructor
        · intro h
          refine ⟨?_, fun i hi hle => h i hi (by omega)⟩
          have h0 := h done.length hlt (le_refl _)
          rw [hget, ← hval] at h0
          exact h0
        · rintro ⟨h0, h⟩ i hi hle
          rcases Nat.lt_or_ge done.length i with h' | h'
          · exact h i hi h'
          · obtain rfl : i = done.length := by omega
            rw [hget, ← hval]
            exact h0
      rw [split]
      cases hc : chk val v (ps[done.length]'(by omega)) with
      | «raise» => simp
      | reject => simp
      | accept =>
        simp only [true_and]
        have := ih (done ++ [v]) (fun y => if y = v then some (ps[done.length]'(by omega)) else val y) (by rw [he]; simp) (by
          intro w
          by_cases hw : w = v
          · subst hw
            have hidx : (order g roots).idxOf w = done.length := by rw [← hget]; exact hnd.idxOf_getElem _ _
            rw [if_pos rfl, if_pos (by simp), hidx, List.getElem?_eq_getElem (by omega)]
          · rw [if_neg hw, hv w]
            simp [hw])
        simpa using this
  have := gen (order g roots) [] s.value rfl (by simp)
  simpa using this

/-- C06, what does hold: if the check of a parameter reads only the entries of parameters before it in the order, a long enough vector is accepted exactly when every entry passes its check given the values that the vector
assigns to the parameters (`full`); the values stored before do not matter. Missing: checks that read parameters after their own in the order, as for a prior whose bounds are parameters
that are not also reached along an earlier path (`C06_acceptance_history_violated`). -/
theorem C06_earlier_partial (roots : List Nat) (hap : RootsApart g roots) (s : St α) (hs : Clean s)
    (chk : (Nat → Option α) → Nat → α → Verdict) (ps : List α) (hlen : (order g roots).length ≤ ps.length)
    (hread : ∀ i (hi : i < (order g roots).length) (val val' : Nat → Option α), (∀ v ∈ (order g roots).take i, val v = val' v) →
      chk val (order g roots)[i] (ps[i]'(by omega)) = chk val' (order g roots)[i] (ps[i]'(by omega)))
    (full : Nat → Option α) (hfull : ∀ v ∈ order g roots, full v = ps[(order g roots).idxOf v]?) :
    (∃ k, (setParameters g chk roots ps s).2 = .ok k) ↔ ∀ i (hi : i < (order g roots).length), chk full (order g roots)[i] (ps[i]'(by omega)) = .accept := by
  rw [C06_exact g roots hap s hs chk ps hlen]
  refine forall_congr' fun i => forall_congr' fun hi => ?_
  rw [hread i hi _ full fun v hv => by rw [if_pos hv, hfull v (List.mem_of_mem_take hv)]]

/-- A check that reads an earlier parameter: 2 must exceed 4, which is first in the order `[4, 1, 2]`. -/
example : ∀ i (hi : i < (order exG [5, 6]).length) (val val' : Nat → Option Int), (∀ v ∈ (order exG [5, 6]).take i, val v = val' v) → ∀ x : Int,
    (fun (val : Nat → Option Int) v x => if v = 2 ∧ ∀ y, val 4 = some y → x ≤ y then Verdict.reject else .accept) val (order exG [5, 6])[i] x =
    (fun (val : Nat → Option Int) v x => if v = 2 ∧ ∀ y, val 4 = some y → x ≤ y then Verdict.reject else .accept) val' (order exG [5, 6])[i] x := by
  simp only [exG_order]
  intro i hi val val' h x
  simp only [List.length_cons, List.length_nil] at hi
  match i, hi with
  | 0, _ => simp
  | 1, _ => simp
  | 2, _ => simp [h 4 (by simp)]

/-- C06, what does hold: if no support check reads other stored values and none raises, a long enough vector is accepted
exactly when each entry is in the support of its parameter. Missing: priors with parameter-dependent support. -/
theorem C06_acceptance_partial (roots : List Nat) (hap : RootsApart g roots) (s : St α) (hs : Clean s)
    (inSupport : Nat → α → Bool) (ps : List α) (hlen : (order g roots).length ≤ ps.length) :
    (∃ k, (setParameters g (fun _ v x => if inSupport v x then .accept else .reject) roots ps s).2 = .ok k) ↔
      ∀ i (hi : i < (order g roots).length), inSupport (order g roots)[i] (ps[i]'(by omega)) = true := by
  have key := setParameters_eq g (fun _ v x => if inSupport v x then .accept else .reject) ps roots hap s hs
  have hl := assign_local (fun v x => if inSupport v x then .accept else .reject) ps (order g roots) 0 s.value
    (fun v x => by split <;> simp) (by omega)
  have hr : (∃ k, (setParameters g (fun _ v x => if inSupport v x then .accept else .reject) roots ps s).2 = .ok k) ↔
      ∃ r, assignInOrder (fun _ v x => if inSupport v x then .accept else .reject) ps (order g roots) 0 s.value = .ok r := by
    cases ha : assignInOrder (fun _ v x => if inSupport v x then .accept else .reject) ps (order g roots) 0 s.value with
    | ok r =>
      obtain ⟨val, k⟩ := r
      rw [ha] at key
      exact ⟨fun _ => ⟨_, rfl⟩, fun _ => ⟨k, key.1⟩⟩
    | error e =>
      rw [ha] at key
      rcases e with ⟨i | _, val⟩
      · simp only at key
        rw [key.1]; simp
      · simp only at key
        rw [key.1]; simp
  rw [hr, hl]
  constructor
  · intro h i hi
    obtain ⟨x, hx, hc⟩ := h i hi
    have hi' : i < ps.length := by omega
    rw [Nat.zero_add, List.getElem?_eq_getElem hi', Option.some.injEq] at hx
    subst hx
    by_contra hn
    simp [hn] at hc
  · intro h i hi
    have hi' : i < ps.length := by omega
    exact ⟨ps[i], by simp [hi'], by simp [h i hi]⟩

example : (order exG [5, 6]).length ≤ [10, 20, 30].length ∧ RootsApart exG [5, 6] := ⟨by rw [exG_order]; decide, exG_apart⟩

/-! ### C07 -/

/-- C07, for graphs in which no discrete parameter is reached along two paths: the prior density of a vector that could
be set is the product over the free parameters, each once, of its density at its entry of the vector, given the
values stored by that vector. Missing: discrete parameters reached along several paths (see the violation below). -/
theorem C07_prior_density_partial (roots : List Nat) (hap : RootsApart g roots) (s : St α) (hs : Clean s)
    (chk : (Nat → Option α) → Nat → α → Verdict) (dens : (Nat → Option α) → Nat → Option α → M) (ps : List α)
    (hok : (setParameters g chk roots ps s).2 = .ok (order g roots).length)
    (hdisc : ∀ v, g.kind v = .disc → (above g roots).count v ≤ 1) :
    (pdfOfPrior g chk dens roots ps s).2 =
      some (((order g roots).zip ps).map fun e => dens (setParameters g chk roots ps s).1.value e.1 (some e.2)).prod := by
  rcases pdfOfPrior_eq g chk dens roots hap ps s hs with ⟨p1, -⟩ | ⟨-, p2, -⟩
  · rw [hok] at p1; simp at p1
  · rw [p2]
    congr 1
    have hsub : ∀ v, v ∈ order g roots ↔ v ∈ above g roots ∧ (g.kind v).isFree = true := fun v => by
      rw [mem_order, mem_above, and_comm]
    have hperm : ((above g roots).eraseDups.filter (isCont g) ++ (above g roots).filter (isDisc g)).Perm (order g roots) := by
      rw [List.perm_ext_iff_of_nodup _ (order_nodup g roots)]
      · intro v
        rw [hsub]
        simp only [List.mem_append, List.mem_filter, List.mem_eraseDups]
        cases hk : g.kind v <;> simp [Kind.isFree, hk]
      · rw [List.nodup_append]
        refine ⟨(by rw [← fresh_none_eq_eraseDups]; exact nodup_fresh.filter _), ?_, ?_⟩
        · rw [List.nodup_iff_count_le_one]
          intro v
          by_cases hv : g.kind v = .disc
          · exact le_trans (List.Sublist.count_le _ List.filter_sublist) (hdisc v hv)
          · rw [List.count_eq_zero.2]
            · omega
            · intro hm; exact hv (by simpa using (List.mem_filter.1 hm).2)
        · intro a ha b hb e
          subst e
          have h1 := (List.mem_filter.1 ha).2
          have h2 := (List.mem_filter.1 hb).2
          simp only [decide_eq_true_eq] at h1 h2
          rw [h1] at h2; simp at h2
    rw [pdfVal, ← prodOver_append, fresh_none_eq_eraseDups, ← eraseDups_filter, prodOver,
      (hperm.map _).prod_eq]
    have hlen : (order g roots).length ≤ ps.length := (C01_set_then_get g roots hap s hs chk ps _ hok).2.1
    congr 1
    apply List.ext_getElem
    · simp; omega
    · intro i h1 h2
      simp only [List.length_map] at h1
      simp only [List.getElem_map, List.getElem_zip, List.getElem_mem, if_true]
      rw [(order_nodup g roots).idxOf_getElem i h1, List.getElem?_eq_getElem (by omega)]

/-- The hypotheses hold on `exG` without the discrete node being shared: here on `chainG`. -/
example : (setParameters chainG (fun _ _ _ => .accept) [2] [3, 4] (St.blank : St Int)).2 = .ok (order chainG [2]).length ∧
    RootsApart chainG [2] ∧ ∀ v, chainG.kind v = .disc → (above chainG [2]).count v ≤ 1 := by
  refine ⟨?_, chainG_apart, ?_⟩
  · have key := setParameters_eq chainG (fun _ _ _ => .accept) [3, 4] [2] chainG_apart (St.blank : St Int) blank_clean
    rw [chainG_order] at key ⊢
    simp [assignInOrder] at key
    exact key.1
  · intro v hv
    have : above chainG [2] = [1, 0] := by simp [above, unfold_eq, chainG, G.ofTable]
    rw [this]
    exact List.nodup_iff_count_le_one.1 (by decide) v

/-- C07 fails when a discrete parameter feeds two others: its probability is multiplied in twice. With density 1 for
the two continuous parameters and 2 (standing for a probability different from 1) for the discrete one, the result
is 4 instead of 2. -/
theorem C07_shared_discrete_violated :
    let dens : (Nat → Option Int) → Nat → Option Int → Nat := fun _ v _ => if v = 0 then 2 else 1
    (pdfOfPrior sharedDiscG (fun _ _ _ => .accept) dens [3] [10, 20, 30] St.blank).2 = some 4 ∧
    ((order sharedDiscG [3]).map fun v => dens (fun _ => none) v none).prod = 2 := by
  intro dens
  have key := setParameters_eq sharedDiscG (fun _ _ _ => .accept) [10, 20, 30] [3] sharedDiscG_apart
    (St.blank : St Int) blank_clean
  rw [sharedDiscG_order] at key
  simp [assignInOrder] at key
  constructor
  · rcases pdfOfPrior_eq sharedDiscG (fun _ _ _ => .accept) dens [3] sharedDiscG_apart [10, 20, 30] St.blank blank_clean
      with ⟨p1, -⟩ | ⟨-, p2, -⟩
    · rw [key.1] at p1; simp at p1
    · rw [p2, sharedDiscG_above]
      simp [pdfVal, prodOver, fresh, dens, sharedDiscG, G.ofTable, List.filter_cons]
  · rw [sharedDiscG_order]; simp [dens]

/-! ### C08 -/

/-- C08 fails: evaluating the density at `[3, 4]` replaces the stored values 1 and 2. -/
theorem C08_density_changes_values_violated :
    ∃ s : St Int, Clean s ∧ (getParameters chainG [2] s).2 = [some 1, some 2] ∧
      (getParameters chainG [2]
        (pdfOfPrior chainG (fun _ _ _ => .accept) (fun _ _ _ => (1 : Nat)) [2] [3, 4] s).1).2 = [some 3, some 4] := by
  let s : St Int := ⟨fun _ => false, fun _ => false, fun v => if v = 1 then some 1 else if v = 0 then some 2 else none⟩
  have hs : Clean s := fun _ => rfl
  have key := setParameters_eq chainG (fun _ _ _ => .accept) [3, 4] [2] chainG_apart s hs
  rw [chainG_order] at key
  simp [assignInOrder] at key
  refine ⟨s, hs, by rw [(getParameters_eq chainG [2] s hs).1, chainG_order]; simp [s], ?_⟩
  rcases pdfOfPrior_eq chainG (fun _ _ _ => .accept) (fun _ _ _ => (1 : Nat)) [2] chainG_apart [3, 4] s hs
      with ⟨p1, -⟩ | ⟨-, -, p3, p4⟩
  · rw [key.1] at p1; simp at p1
  · rw [(getParameters_eq chainG [2] _ p4).1, chainG_order, p3, key.2.1]; simp

/-- C08, what does hold: the density call stores exactly what `set_parameters` with the same vector would store; so if the
vector equals the stored parameters, nothing changes. Missing: other vectors; and the numbers in the vector
(a Student-t prior changes its argument in place, see `Verif.Models.Props`). -/
theorem C08_density_changes_values_partial (roots : List Nat) (hap : RootsApart g roots) (s : St α) (hs : Clean s)
    (chk : (Nat → Option α) → Nat → α → Verdict) (dens : (Nat → Option α) → Nat → Option α → M) (ps : List α) (d : M)
    (hd : (pdfOfPrior g chk dens roots ps s).2 = some d) :
    (pdfOfPrior g chk dens roots ps s).1.value = (setParameters g chk roots ps s).1.value ∧
    ((getParameters g roots s).2 = (ps.take (order g roots).length).map some →
      (getParameters g roots (pdfOfPrior g chk dens roots ps s).1).2 = (getParameters g roots s).2) := by
  rcases pdfOfPrior_eq g chk dens roots hap ps s hs with ⟨-, p2⟩ | ⟨p1, -, p3, p4⟩
  · rw [hd] at p2; simp at p2
  · refine ⟨p3, fun hsame => ?_⟩
    rw [(getParameters_eq g roots _ p4).1, p3]
    have hlen : (order g roots).length ≤ ps.length := by
      have := congrArg List.length hsame
      rw [(getParameters_eq g roots s hs).1] at this
      simp at this
      omega
    cases hr : (setParameters g chk roots ps s).2 with
    | ok k =>
      have c1 := C01_set_then_get g roots hap s hs chk ps k hr
      have c2 := (C02_orders_agree g roots hap s hs).2.2.2.2.2.2 chk ps k hr
      have hcl : Clean (setParameters g chk roots ps s).1 := by
        have key := setParameters_eq g chk ps roots hap s hs
        revert key
        split
        · exact fun key => key.2.2
        · exact fun key => key.2.2
        · intro key; exact absurd key.1 p1
      rw [← (getParameters_eq g roots _ hcl).1, c1.1, hsame, c2.1]
    | error e =>
      cases e with
      | raised => exact absurd hr p1
      | rejected k =>
        have c := C05_rejected_leaves_values_partial g roots hap s hs chk ps k hr
        have hcl : Clean (setParameters g chk roots ps s).1 := by
          have key := setParameters_eq g chk ps roots hap s hs
          revert key
          split
          · exact fun key => key.2.2
          · exact fun key => key.2.2
          · intro key; exact absurd key.1 p1
        rw [← (getParameters_eq g roots _ hcl).1, c.2.1]
        rw [hsame]
        rw [← List.map_drop, ← List.map_append]
        congr 1
        rw [List.drop_take]
        conv_rhs => rw [← Nat.add_sub_cancel' (le_of_lt c.1), List.take_add]

example : (pdfOfPrior chainG (fun _ _ _ => .accept) (fun _ _ _ => (1 : Nat)) [2] [3, 4] (St.blank : St Int)).2 = some 1 := by
  have key := setParameters_eq chainG (fun _ _ _ => .accept) [3, 4] [2] chainG_apart (St.blank : St Int) blank_clean
  rw [chainG_order] at key
  simp [assignInOrder] at key
  rcases pdfOfPrior_eq chainG (fun _ _ _ => .accept) (fun _ _ _ => (1 : Nat)) [2] chainG_apart [3, 4] (St.blank : St Int) blank_clean
      with ⟨p1, -⟩ | ⟨-, p2, -, -⟩
  · rw [key.1] at p1; simp at p1
  · rw [p2]; simp [pdfVal, prodOver]

/-! ### C09 -/

/-- C09. For pairs with distinct models, all of them free parameters of the graph, `get_correct_ordering` returns their
values in parameter order, whatever the order of the pairs. -/
theorem C09_ordering (roots : List Nat) (hap : RootsApart g roots) (s : St α) (hs : Clean s)
    (pairs : List (Nat × List α)) (hnd : (pairs.map Prod.fst).Nodup) (hin : ∀ e ∈ pairs, e.1 ∈ order g roots) :
    (correctOrdering g roots pairs s).2 = (order g roots).flatMap (fun v => (pairs.lookup v).getD []) ∧
    (∀ v p, (v, p) ∈ pairs → (pairs.lookup v).getD [] = p) ∧
    (∀ pairs', pairs.Perm pairs' → (correctOrdering g roots pairs' s).2 = (correctOrdering g roots pairs s).2) := by
  have hl : firstParams pairs = fun v => (pairs.lookup v).getD [] := funext (firstParams_eq_lookup pairs)
  refine ⟨?_, fun v p h => ?_, fun pairs' hp => ?_⟩
  · rw [(correctOrdering_eq g pairs roots s hs).1, ← hl,
      flatMap_eq_flatMap_filter _ _ (fun v => decide (v ∈ order g roots)), filter_order_eq g roots hap]
    intro x _ hx
    refine firstParams_eq_nil pairs fun hm => ?_
    obtain ⟨e, he, rfl⟩ := List.mem_map.1 hm
    simp [hin e he] at hx
  · rw [← firstParams_eq_lookup]; exact firstParams_eq_of_mem pairs hnd h
  · rw [(correctOrdering_eq g pairs roots s hs).1, (correctOrdering_eq g pairs' roots s hs).1, firstParams_perm hp hnd]

/-- C09, permutations only: no assumption on the graph, roots may be inputs of roots. -/
theorem C09_ordering_perm (roots : List Nat) (s : St α) (hs : Clean s)
    (pairs pairs' : List (Nat × List α)) (hnd : (pairs.map Prod.fst).Nodup) (hp : pairs.Perm pairs') :
    (correctOrdering g roots pairs' s).2 = (correctOrdering g roots pairs s).2 := by
  rw [(correctOrdering_eq g pairs roots s hs).1, (correctOrdering_eq g pairs' roots s hs).1, firstParams_perm hp hnd]

example : (correctOrdering exG [5, 6] [(2, [30]), (4, [10]), (1, [20])] (St.blank : St Int)).2 = [10, 20, 30] := by
  rw [(C09_ordering exG [5, 6] exG_apart St.blank blank_clean [(2, [30]), (4, [10]), (1, [20])] (by decide)
    (by rw [exG_order]; decide)).1, exG_order]
  rfl

/-! ### C11 -/

/-- C11. For any list of free parameters and any table whose rows are parameter vectors, the selection has one row per
stored particle, and its j-th entry is that particle's entry for `models[j]`, i.e. the value `get_parameters` would
return at the position of `models[j]` if the row had been set. -/
theorem C11_columns (roots : List Nat) (hap : RootsApart g roots) (s : St α) (hs : Clean s)
    (models : List Nat) (hm : ∀ v ∈ models, v ∈ order g roots) (rows : List (List α))
    (hrows : ∀ row ∈ rows, (order g roots).length ≤ row.length) :
    (acceptedValues g roots s models rows).2.length = rows.length ∧
    ∀ i (hi : i < rows.length), ∃ sel : List α, (acceptedValues g roots s models rows).2[i]? = some (sel.map some) ∧
      sel.length = models.length ∧
      ∀ j (hj : j < models.length) (c : Nat), (order g roots)[c]? = some models[j] → sel[j]? = (rows[i])[c]? := by
  have e : (acceptedValues g roots s models rows).2 =
      rows.map fun row => models.map fun v => row[(order g roots).idxOf v]? := by
    simp only [acceptedValues, (mgetMapping_eq g roots hap s hs).1]
    refine List.map_congr_left fun row _ => ?_
    have hone : ∀ (l : List Nat) (k v : Nat), l.Nodup → v ∈ l →
        ((l.zipIdx k).filter fun e => e.1 == v) = [(v, k + l.idxOf v)] := by
      intro l
      induction l with
      | nil => intro k v _ h; simp at h
      | cons x l ih =>
        intro k v hnd h
        rw [List.nodup_cons] at hnd
        rw [List.zipIdx_cons, List.filter_cons]
        by_cases hx : x = v
        · subst hx
          have : ((l.zipIdx (k + 1)).filter fun e => e.1 == x) = [] := by
            rw [List.filter_eq_nil_iff]
            intro a ha hax
            obtain ⟨-, -, h3⟩ := List.mem_zipIdx ha
            simp only [beq_iff_eq] at hax
            exact hnd.1 (by rw [← hax, h3]; exact List.getElem_mem _)
          simp [this]
        · have h' : v ∈ l := by rcases List.mem_cons.1 h with e | e; exact absurd e.symm hx; exact e
          have hb : (x == v) = false := by simpa using hx
          simp only [hb]
          rw [ih (k + 1) v hnd.2 h', List.idxOf_cons, hb]
          simp; omega
    induction models with
    | nil => rfl
    | cons v l ih =>
      rw [List.flatMap_cons, List.map_cons, ih fun w hw => hm w (by simp [hw]),
        hone (order g roots) 0 v (order_nodup g roots) (hm v (by simp))]
      simp
  rw [e]
  refine ⟨by simp, fun i hi => ?_⟩
  have hrow := hrows rows[i] (List.getElem_mem hi)
  refine ⟨models.attach.map fun v => rows[i]'hi |>.get ⟨(order g roots).idxOf v.1,
    lt_of_lt_of_le (List.idxOf_lt_length_iff.2 (hm v.1 v.2)) hrow⟩, ?_, by simp, ?_⟩
  · rw [List.getElem?_map, List.getElem?_eq_getElem hi, Option.map_some, List.map_map]
    congr 1
    apply List.ext_getElem
    · simp
    · intro j h1 h2
      simp only [List.length_map] at h1
      have : (order g roots).idxOf models[j] < rows[i].length :=
        lt_of_lt_of_le (List.idxOf_lt_length_iff.2 (hm _ (List.getElem_mem h1))) hrow
      simp [List.getElem?_eq_getElem this]
  · intro j hj c hc
    obtain ⟨hc', hce⟩ := List.getElem?_eq_some_iff.1 hc
    have hidx : (order g roots).idxOf models[j] = c := by
      rw [← hce]; exact (order_nodup g roots).idxOf_getElem c hc'
    have : c < rows[i].length := by omega
    simp only [List.getElem?_map, List.getElem?_attach]
    simp [List.getElem?_eq_getElem hj, hidx, List.getElem?_eq_getElem this]

example : (∀ v ∈ [2, 4], v ∈ order exG [5, 6]) ∧ (∀ row ∈ [[10, 20, 30], [11, 21, 31]], (order exG [5, 6]).length ≤ row.length) := by
  rw [exG_order]; decide

end Verif.Graph
