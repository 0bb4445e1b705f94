import Verif.Graph.Props
/-
C213: what an operation on the graph that is interrupted (by an exception in user code, or by the user) leaves behind, and how the next calls recover from it.
-/
namespace Verif.Graph

variable {α M : Type} (g : G)

/-- Specification. What can be left when an operation on the graph is interrupted at any point: the operations mark nodes, remember that a density was computed, store values and clear flags
one node at a time, and all these nodes are roots or above roots. -/
inductive Left (roots : List Nat) (s : St α) : St α → Prop
  | start : Left roots s s
  | mark {t} (v : Nat) : Left roots s t → InGraph g roots v → Left roots s (mark t v)
  | memo {t} (v : Nat) : Left roots s t → InGraph g roots v → Left roots s (setMemo t v)
  | store {t} (v : Nat) (x : α) : Left roots s t → InGraph g roots v → Left roots s (store t v x)
  | clear {t} (v : Nat) : Left roots s t → InGraph g roots v → Left roots s (clear t v)

/-- Marks are in the set `B` only. -/
def OnlyIn (B : Nat → Prop) (s : St α) : Prop := ∀ v, s.visited v = true → B v

theorem OnlyIn.mark {B : Nat → Prop} {s : St α} (h : OnlyIn B s) {v : Nat} (hv : B v) : OnlyIn B (mark s v) := by
  intro w hw
  simp only [mark_visited, Bool.or_eq_true, beq_iff_eq] at hw
  rcases hw with rfl | hw
  · exact hv
  · exact h w hw

theorem Left.onlyIn {roots : List Nat} {s t : St α} (hs : Clean s) (h : Left g roots s t) : OnlyIn (InGraph g roots) t := by
  induction h with
  | start => intro v hv; rw [hs v] at hv; cases hv
  | mark v _ hv ih => exact ih.mark hv
  | memo v _ _ ih => exact ih
  | store v x _ _ ih => exact ih
  | clear v _ _ ih =>
    intro w hw
    simp only [Verif.Graph.clear, Bool.and_eq_true] at hw
    exact ih w hw.2

theorem forMem_inv {σ : Type} (P : σ → Prop) : ∀ (l : List Nat) (f : (p : Nat) → p ∈ l → σ → σ) (s : σ), (∀ p hp s, P s → P (f p hp s)) → P s → P (forMem l f s)
  | [], _, _, _, h => h
  | p :: l, f, s, hf, h => forMem_inv P l _ _ (fun q hq s => hf q (List.mem_cons_of_mem _ hq) s) (hf p List.mem_cons_self s h)

/-- Both outcomes of a loop with early exit. -/
def Both {σ ε : Type} (P : σ → Prop) (Q : ε → Prop) : Except ε σ → Prop
  | .ok s => P s
  | .error e => Q e

theorem forMemE_inv {σ ε : Type} (P : σ → Prop) (Q : ε → Prop) : ∀ (l : List Nat) (f : (p : Nat) → p ∈ l → σ → Except ε σ) (s : σ),
    (∀ p hp s, P s → Both P Q (f p hp s)) → P s → Both P Q (forMemE l f s)
  | [], _, _, _, h => h
  | p :: l, f, s, hf, h => by
    have hp := hf p List.mem_cons_self s h
    rw [forMemE]
    cases hr : f p List.mem_cons_self s with
    | error e => rw [hr] at hp; exact hp
    | ok s' => rw [hr] at hp; exact forMemE_inv P Q l _ s' (fun q hq s => hf q (List.mem_cons_of_mem _ hq) s) hp

variable {g} {B : Nat → Prop}

theorem getNode_onlyIn (hB : ∀ v, B v → ∀ p ∈ g.parents v, B p) (v : Nat) (hv : B v) (s : St α) (h : OnlyIn B s) : OnlyIn B (getNode g v s).1 := by
  induction v using Nat.strong_induction_on generalizing s with
  | _ v ih =>
    rw [getNode]
    refine forMem_inv (fun x : St α × List (Option α) => OnlyIn B x.1) _ _ _ (fun p hp x hx => ?_) ?_
    · show OnlyIn B (if x.1.visited p then (x.1, x.2) else (mark (getNode g p x.1).1 p, x.2 ++ (getNode g p x.1).2)).1
      split
      · exact hx
      · exact (ih p (g.lt_of_parent hp) (hB v hv p hp) x.1 hx).mark (hB v hv p hp)
    · by_cases hk : (g.kind v).isFree
      · rw [if_pos hk]; exact h.mark hv
      · rw [if_neg hk]; exact h

theorem getParameters_onlyIn (hB : ∀ v, B v → ∀ p ∈ g.parents v, B p) (roots : List Nat) (hr : ∀ r ∈ roots, B r) (s : St α) (h : OnlyIn B s) :
    ∃ t : St α, OnlyIn B t ∧ (getParameters g roots s).1 = resetFlags g roots t := by
  refine ⟨_, ?_, rfl⟩
  refine forMem_inv (fun x : St α × List (Option α) => OnlyIn B x.1) _ _ _ (fun r hr' x hx => ?_) h
  show OnlyIn B (getRoot g r x.1 x.2).1
  rw [getRoot]
  refine forMem_inv (fun x : St α × List (Option α) => OnlyIn B x.1) _ _ _ (fun p hp x hx => ?_) hx
  show OnlyIn B (if x.1.visited p then (x.1, x.2) else (mark (getNode g p x.1).1 p, x.2 ++ (getNode g p x.1).2)).1
  split
  · exact hx
  · exact (getNode_onlyIn hB p (hB r (hr r hr') p hp) x.1 hx).mark (hB r (hr r hr') p hp)

theorem mapNode_onlyIn (hB : ∀ v, B v → ∀ p ∈ g.parents v, B p) (v : Nat) (hv : B v) (s : St α) (idx : Nat) (h : OnlyIn B s) : OnlyIn B (mapNode g v s idx).1 := by
  induction v using Nat.strong_induction_on generalizing s idx with
  | _ v ih =>
    rw [mapNode]
    refine OnlyIn.mark ?_ hv
    refine forMem_inv (fun x : St α × List (Nat × Nat) × Nat => OnlyIn B x.1) _ _ _ (fun p hp x hx => ?_) ?_
    · exact (ih p (g.lt_of_parent hp) (hB v hv p hp) x.1 x.2.2 hx).mark (hB v hv p hp)
    · split <;> exact h

theorem getMapping_onlyIn (hB : ∀ v, B v → ∀ p ∈ g.parents v, B p) (roots : List Nat) (hr : ∀ r ∈ roots, B r) (s : St α) (h : OnlyIn B s) :
    ∃ t : St α, OnlyIn B t ∧ (getMapping g roots s).1 = resetFlags g roots t := by
  refine ⟨_, ?_, rfl⟩
  refine forMem_inv (fun x : St α × List (Nat × Nat) × Nat => OnlyIn B x.1) _ _ _ (fun r hr' x hx => ?_) h
  show OnlyIn B (mapRoot g r x.1 x.2.1 x.2.2).1
  rw [mapRoot]
  refine OnlyIn.mark ?_ (hr r hr')
  refine forMem_inv (fun x : St α × List (Nat × Nat) × Nat => OnlyIn B x.1) _ _ _ (fun p hp x hx => ?_) hx
  exact (mapNode_onlyIn hB p (hB r (hr r hr') p hp) x.1 x.2.2 hx).mark (hB r (hr r hr') p hp)

theorem ordNode_onlyIn (hB : ∀ v, B v → ∀ p ∈ g.parents v, B p) (pairs : List (Nat × List α)) (v : Nat) (hv : B v) (s : St α) (h : OnlyIn B s) :
    OnlyIn B (ordNode g pairs v s).1 := by
  induction v using Nat.strong_induction_on generalizing s with
  | _ v ih =>
    rw [ordNode]
    split
    · exact h
    · refine forMem_inv (fun x : St α × List α => OnlyIn B x.1) _ _ _ (fun p hp x hx => ?_) (h.mark hv)
      show OnlyIn B (if x.1.visited p then (x.1, x.2) else ((ordNode g pairs p x.1).1, x.2 ++ (ordNode g pairs p x.1).2)).1
      split
      · exact hx
      · exact ih p (g.lt_of_parent hp) (hB v hv p hp) x.1 hx

theorem correctOrdering_onlyIn (hB : ∀ v, B v → ∀ p ∈ g.parents v, B p) (pairs : List (Nat × List α)) (roots : List Nat) (hr : ∀ r ∈ roots, B r) (s : St α) (h : OnlyIn B s) :
    ∃ t : St α, OnlyIn B t ∧ (correctOrdering g roots pairs s).1 = resetFlags g roots t := by
  refine ⟨_, ?_, rfl⟩
  exact forMem_inv (fun x : St α × List α => OnlyIn B x.1) _ _ _ (fun r hr' x hx => ordNode_onlyIn hB pairs r (hr r hr') x.1 hx) h

theorem setNode_onlyIn (hB : ∀ v, B v → ∀ p ∈ g.parents v, B p) (chk : (Nat → Option α) → Nat → α → Verdict) (ps : List α) (v : Nat) (hv : B v) (s : St α) (idx : Nat) (h : OnlyIn B s) :
    Both (fun x : St α × Nat => OnlyIn B x.1) (fun e : SetFail × St α => OnlyIn B e.2) (setNode g chk ps v s idx) := by
  induction v using Nat.strong_induction_on generalizing s idx with
  | _ v ih =>
    have loop : ∀ (s0 : St α × Nat), OnlyIn B s0.1 → Both (fun x : St α × Nat => OnlyIn B x.1) (fun e : SetFail × St α => OnlyIn B e.2)
        (match forMemE (ε := SetFail × St α) (g.parents v) (fun p _ (x : St α × Nat) => if x.1.visited p || g.kind p = .hyper then .ok (x.1, x.2) else setNode g chk ps p x.1 x.2) s0 with
          | .error e => .error e
          | .ok (s, idx) => .ok (mark s v, idx)) := by
      intro s0 h0
      have := forMemE_inv (fun x : St α × Nat => OnlyIn B x.1) (fun e : SetFail × St α => OnlyIn B e.2) (g.parents v)
        (fun p _ (x : St α × Nat) => if x.1.visited p || g.kind p = .hyper then .ok (x.1, x.2) else setNode g chk ps p x.1 x.2) s0 (fun p hp x hx => by
          split
          · exact hx
          · exact ih p (g.lt_of_parent hp) (hB v hv p hp) x.1 x.2 hx) h0
      revert this
      cases forMemE (ε := SetFail × St α) (g.parents v) (fun p _ (x : St α × Nat) => if x.1.visited p || g.kind p = .hyper then .ok (x.1, x.2) else setNode g chk ps p x.1 x.2) s0 with
      | error e => exact fun h => h
      | ok x => exact fun h => OnlyIn.mark h hv
    rw [setNode]
    by_cases hk : g.kind v = .op
    · simp only [hk, if_true]
      exact loop (s, idx) h
    · simp only [hk, if_false]
      cases ps[idx]? with
      | none => exact h
      | some x =>
        dsimp only
        cases chk s.value v x with
        | raise => exact h
        | reject => exact h
        | accept => exact loop (mark (store s v x) v, idx + 1) (OnlyIn.mark h hv)

theorem setLoop_onlyIn (hB : ∀ v, B v → ∀ p ∈ g.parents v, B p) (chk : (Nat → Option α) → Nat → α → Verdict) (ps : List α) (roots : List Nat) (hr : ∀ r ∈ roots, B r)
    (s : St α) (h : OnlyIn B s) : Both (fun x : St α × Nat => OnlyIn B x.1) (fun e : SetFail × St α => OnlyIn B e.2)
      (forMemE (ε := SetFail × St α) roots (fun r _ (x : St α × Nat) => setRoot g chk ps r x.1 x.2) (s, 0)) := by
  exact forMemE_inv (fun x : St α × Nat => OnlyIn B x.1) (fun e : SetFail × St α => OnlyIn B e.2) roots
    (fun r _ (x : St α × Nat) => setRoot g chk ps r x.1 x.2) (s, 0) (fun r hr' x hx => by
      rw [setRoot]
      have := forMemE_inv (fun x : St α × Nat => OnlyIn B x.1) (fun e : SetFail × St α => OnlyIn B e.2) (g.parents r)
        (fun p _ (x : St α × Nat) => if x.1.visited p || g.kind p = .hyper then .ok (x.1, x.2) else setNode g chk ps p x.1 x.2) x (fun p hp x hx => by
          split
          · exact hx
          · exact setNode_onlyIn hB chk ps p (hB r (hr r hr') p hp) x.1 x.2 hx) hx
      revert this
      change Both _ _ (forMemE (ε := SetFail × St α) (g.parents r) (fun p _ (x : St α × Nat) => if x.1.visited p || g.kind p = .hyper then .ok (x.1, x.2) else setNode g chk ps p x.1 x.2) x) →
        Both _ _ (match forMemE (ε := SetFail × St α) (g.parents r) (fun p _ (x : St α × Nat) => if x.1.visited p || g.kind p = .hyper then .ok (x.1, x.2) else setNode g chk ps p x.1 x.2) x with
          | .error e => .error e
          | .ok (s, idx) => .ok (mark s r, idx))
      cases forMemE (ε := SetFail × St α) (g.parents r) (fun p _ (x : St α × Nat) => if x.1.visited p || g.kind p = .hyper then .ok (x.1, x.2) else setNode g chk ps p x.1 x.2) x with
      | error e => exact fun h => h
      | ok x => exact fun h => OnlyIn.mark h (hr r hr')) h

theorem setParameters_onlyIn (hB : ∀ v, B v → ∀ p ∈ g.parents v, B p) (chk : (Nat → Option α) → Nat → α → Verdict) (ps : List α) (roots : List Nat) (hr : ∀ r ∈ roots, B r)
    (s : St α) (h : OnlyIn B s) (hne : (setParameters g chk roots ps s).2 ≠ .error .raised) :
    ∃ t : St α, OnlyIn B t ∧ (setParameters g chk roots ps s).1 = resetFlags g roots t := by
  have key := setLoop_onlyIn hB chk ps roots hr s h
  rw [setParameters] at hne ⊢
  revert hne
  revert key
  change Both _ _ (forMemE (ε := SetFail × St α) roots (fun r _ (x : St α × Nat) => setRoot g chk ps r x.1 x.2) (s, 0)) →
    (match forMemE (ε := SetFail × St α) roots (fun r _ (x : St α × Nat) => setRoot g chk ps r x.1 x.2) (s, 0) with
      | .ok (s, idx) => (resetFlags g roots s, .ok idx)
      | .error (.rejected i, s) => (resetFlags g roots s, .error (.rejected i))
      | .error (.raised, s) => (s, .error .raised) : St α × Except SetFail Nat).2 ≠ .error .raised →
    ∃ t : St α, OnlyIn B t ∧ (match forMemE (ε := SetFail × St α) roots (fun r _ (x : St α × Nat) => setRoot g chk ps r x.1 x.2) (s, 0) with
      | .ok (s, idx) => (resetFlags g roots s, .ok idx)
      | .error (.rejected i, s) => (resetFlags g roots s, .error (.rejected i))
      | .error (.raised, s) => (s, .error .raised) : St α × Except SetFail Nat).1 = resetFlags g roots t
  rcases forMemE (ε := SetFail × St α) roots (fun r _ (x : St α × Nat) => setRoot g chk ps r x.1 x.2) (s, 0) with ⟨_ | _, t⟩ | ⟨t, _⟩
  · exact fun h _ => ⟨t, h, rfl⟩
  · exact fun _ h => absurd rfl h
  · exact fun h _ => ⟨t, h, rfl⟩

theorem setParameters_raised (hB : ∀ v, B v → ∀ p ∈ g.parents v, B p) (chk : (Nat → Option α) → Nat → α → Verdict) (ps : List α) (roots : List Nat) (hr : ∀ r ∈ roots, B r)
    (s : St α) (h : OnlyIn B s) (he : (setParameters g chk roots ps s).2 = .error .raised) : OnlyIn B (setParameters g chk roots ps s).1 := by
  have key := setLoop_onlyIn hB chk ps roots hr s h
  rw [setParameters] at he ⊢
  revert he
  revert key
  change Both _ _ (forMemE (ε := SetFail × St α) roots (fun r _ (x : St α × Nat) => setRoot g chk ps r x.1 x.2) (s, 0)) →
    (match forMemE (ε := SetFail × St α) roots (fun r _ (x : St α × Nat) => setRoot g chk ps r x.1 x.2) (s, 0) with
      | .ok (s, idx) => (resetFlags g roots s, .ok idx)
      | .error (.rejected i, s) => (resetFlags g roots s, .error (.rejected i))
      | .error (.raised, s) => (s, .error .raised) : St α × Except SetFail Nat).2 = .error .raised →
    OnlyIn B (match forMemE (ε := SetFail × St α) roots (fun r _ (x : St α × Nat) => setRoot g chk ps r x.1 x.2) (s, 0) with
      | .ok (s, idx) => (resetFlags g roots s, .ok idx)
      | .error (.rejected i, s) => (resetFlags g roots s, .error (.rejected i))
      | .error (.raised, s) => (s, .error .raised) : St α × Except SetFail Nat).1
  rcases forMemE (ε := SetFail × St α) roots (fun r _ (x : St α × Nat) => setRoot g chk ps r x.1 x.2) (s, 0) with ⟨_ | _, t⟩ | ⟨t, _⟩
  · exact fun _ h => by cases h
  · exact fun h _ => h
  · exact fun _ h => by cases h

theorem sampleNode_onlyIn (hB : ∀ v, B v → ∀ p ∈ g.parents v, B p) (sm : Sim α) (v : Nat) (hv : B v) (s : Smp α) (h : OnlyIn B s.st) :
    Both (fun x : Smp α => OnlyIn B x.st) (fun x : Smp α => OnlyIn B x.st) (sampleNode g sm v s) := by
  induction v using Nat.strong_induction_on generalizing s with
  | _ v ih =>
    rw [sampleNode]
    have := forMemE_inv (fun x : Smp α => OnlyIn B x.st) (fun x : Smp α => OnlyIn B x.st) (g.parents v)
      (fun p _ s => if s.st.visited p then .ok s else sampleNode g sm p { s with st := mark s.st p }) s (fun p hp x hx => by
        split
        · exact hx
        · exact ih p (g.lt_of_parent hp) (hB v hv p hp) _ (OnlyIn.mark hx (hB v hv p hp))) h
    revert this
    cases forMemE (g.parents v) (fun p _ s => if s.st.visited p then .ok s else sampleNode g sm p { s with st := mark s.st p }) s with
    | error e => exact fun h => h
    | ok x =>
      intro (hx : OnlyIn B x.st)
      dsimp only
      have hd : OnlyIn B (drawNode g sm v x).1.st := by
        rw [drawNode]
        split
        · exact hx.mark hv
        · split
          · exact hx
          · dsimp only
            split <;> exact hx
      revert hd
      rcases drawNode g sm v x with ⟨y, _ | _⟩
      · exact fun h => h
      · exact fun h => OnlyIn.mark h hv

theorem sampleAttempt_onlyIn (hB : ∀ v, B v → ∀ p ∈ g.parents v, B p) (sm : Sim α) (roots : List Nat) (hr : ∀ r ∈ roots, B r) (s : Smp α) (h : OnlyIn B s.st) :
    Both (fun x : Smp α => OnlyIn B x.st) (fun x : Smp α => OnlyIn B x.st) (sampleAttempt g sm roots s) := by
  refine forMemE_inv (fun x : Smp α => OnlyIn B x.st) (fun x : Smp α => OnlyIn B x.st) roots _ s (fun r hr' x hx => ?_) h
  rw [sampleRoot]
  have := forMemE_inv (fun x : Smp α => OnlyIn B x.st) (fun x : Smp α => OnlyIn B x.st) (g.parents r)
    (fun p _ s => if s.st.visited p then .ok s else sampleNode g sm p { s with st := mark s.st p }) x (fun p hp x hx => by
      split
      · exact hx
      · exact sampleNode_onlyIn hB sm p (hB r (hr r hr') p hp) _ (OnlyIn.mark hx (hB r (hr r hr') p hp))) hx
  revert this
  cases forMemE (g.parents r) (fun p _ s => if s.st.visited p then .ok s else sampleNode g sm p { s with st := mark s.st p }) x with
  | error e => exact fun h => h
  | ok x => exact fun h => OnlyIn.mark h (hr r hr')

theorem sampleFromPrior_onlyIn (hB : ∀ v, B v → ∀ p ∈ g.parents v, B p) (sm : Sim α) (roots : List Nat) (hr : ∀ r ∈ roots, B r) (n : Nat) (s s' : Smp α) (h : OnlyIn B s.st)
    (hs : sampleFromPrior g sm roots n s = some s') : ∃ t : St α, OnlyIn B t ∧ s'.st = resetFlags g roots t := by
  induction n generalizing s with
  | zero => simp [sampleFromPrior] at hs
  | succ n ih =>
    have hb := sampleAttempt_onlyIn hB sm roots hr { s with log := [] } h
    rw [sampleFromPrior] at hs
    cases ha : sampleAttempt g sm roots { s with log := [] } with
    | ok t =>
      rw [ha] at hs hb
      simp only [Option.some.injEq] at hs
      exact ⟨t.st, hb, by rw [← hs]⟩
    | error t =>
      rw [ha] at hs hb
      refine ih { t with st := resetFlags g roots t.st } (fun v hv => ?_) hs
      rw [resetFlags_eq] at hv
      simp only [Bool.and_eq_true] at hv
      exact hb v hv.2

theorem pdfNode_visited [Mul M] [One M] (dens : (Nat → Option α) → Nat → Option α → M) (m : List (Nat × Nat)) (ps : List α) (v : Nat) (s : St α) :
    (pdfNode g dens m ps v s).1.visited = s.visited := by
  induction v using Nat.strong_induction_on generalizing s with
  | _ v ih =>
    rw [pdfNode]
    have := forMem_inv (fun x : St α × M => x.1.visited = s.visited) (g.parents v) (fun p _ (x : St α × M) => ((pdfNode g dens m ps p x.1).1, x.2 * (pdfNode g dens m ps p x.1).2)) (s, 1)
      (fun p hp x hx => by rw [ih p (g.lt_of_parent hp), hx]) rfl
    revert this
    change (forMem (g.parents v) (fun p _ (x : St α × M) => ((pdfNode g dens m ps p x.1).1, x.2 * (pdfNode g dens m ps p x.1).2)) (s, 1)).1.visited = s.visited → _
    generalize forMem (g.parents v) (fun p _ (x : St α × M) => ((pdfNode g dens m ps p x.1).1, x.2 * (pdfNode g dens m ps p x.1).2)) (s, 1) = x
    obtain ⟨t, d⟩ := x
    intro hx
    dsimp only
    by_cases hm : t.memo v
    · rw [if_pos hm]; exact hx
    · rw [if_neg hm]
      cases g.kind v <;> exact hx

/-- The operations that end with `_reset_flags` of the graph. -/
def Call.resets : Call α → Prop
  | .managerMapping => False
  | .columns _ _ => False
  | _ => True

theorem inGraph_parents (roots : List Nat) (v : Nat) (hv : InGraph g roots v) (p : Nat) (hp : p ∈ g.parents v) : InGraph g roots p := by
  rcases hv with h | ⟨r, hr, h⟩
  · exact .inr ⟨v, h, .input hp⟩
  · exact .inr ⟨r, hr, (Anc.input hp).trans h⟩

theorem resetFlags_of_onlyIn (roots : List Nat) (t : St α) (h : OnlyIn (InGraph g roots) t) : Clean (resetFlags g roots t) :=
  resetFlags_clean g roots t fun v hv => by
    obtain ⟨r, hr, h'⟩ := (inGraph_iff g roots v).1 (h v hv)
    exact List.mem_flatMap.2 ⟨r, hr, h'⟩

theorem run_clean [CommMonoid M] (nd : Nodes α M) (roots : List Nat) (s : St α) (h : OnlyIn (InGraph g roots) s) (c : Call α) (hc : c.resets)
    (hr : (run g nd roots s c).2.returned) : Clean (run g nd roots s c).1 := by
  have hB := inGraph_parents (g := g) roots
  have hroots : ∀ r ∈ roots, InGraph g roots r := fun r hr => .inl hr
  cases c with
  | get =>
    obtain ⟨t, ht, e⟩ := getParameters_onlyIn hB roots hroots s h
    show Clean (getParameters g roots s).1
    rw [e]; exact resetFlags_of_onlyIn roots t ht
  | set ps =>
    obtain ⟨t, ht, e⟩ := setParameters_onlyIn hB nd.chk ps roots hroots s h (fun e => by
      have : (run g nd roots s (.set ps)).2 = .setResult (setParameters g nd.chk roots ps s).2 := rfl
      rw [this, e] at hr
      exact hr)
    show Clean (setParameters g nd.chk roots ps s).1
    rw [e]; exact resetFlags_of_onlyIn roots t ht
  | mapping =>
    obtain ⟨t, ht, e⟩ := getMapping_onlyIn hB roots hroots s h
    show Clean (getMapping g roots s).1
    rw [e]; exact resetFlags_of_onlyIn roots t ht
  | managerMapping => exact hc.elim
  | columns _ _ => exact hc.elim
  | ordering pairs =>
    obtain ⟨t, ht, e⟩ := correctOrdering_onlyIn hB pairs roots hroots s h
    show Clean (correctOrdering g roots pairs s).1
    rw [e]; exact resetFlags_of_onlyIn roots t ht
  | sample k t =>
    simp only [run] at hr ⊢
    cases hs : sampleFromPrior g nd.sim roots k ⟨s, t, []⟩ with
    | none => rw [hs] at hr; exact hr.elim
    | some s' =>
      obtain ⟨t', ht, e⟩ := sampleFromPrior_onlyIn hB nd.sim roots hroots k ⟨s, t, []⟩ s' h hs
      show Clean s'.st
      rw [e]; exact resetFlags_of_onlyIn roots t' ht
  | density ps =>
    have hne : (setParameters g nd.chk roots ps s).2 ≠ .error .raised := by
      intro e
      simp only [run, pdfOfPrior] at hr
      rcases hx : setParameters g nd.chk roots ps s with ⟨t, r⟩
      rw [hx] at e hr
      simp only at e
      subst e
      exact hr
    obtain ⟨t, ht, e⟩ := setParameters_onlyIn hB nd.chk ps roots hroots s h hne
    have hcl : Clean (setParameters g nd.chk roots ps s).1 := by rw [e]; exact resetFlags_of_onlyIn roots t ht
    obtain ⟨t2, ht2, e2⟩ := getMapping_onlyIn hB roots hroots (setParameters g nd.chk roots ps s).1 (fun v hv => by rw [hcl v] at hv; cases hv)
    have hcl2 : Clean (getMapping g roots (setParameters g nd.chk roots ps s).1).1 := by rw [e2]; exact resetFlags_of_onlyIn roots t2 ht2
    have hvis : (run g nd roots s (.density ps)).1.visited = (getMapping g roots (setParameters g nd.chk roots ps s).1).1.visited := by
      simp only [run, pdfOfPrior]
      rcases hx : setParameters g nd.chk roots ps s with ⟨t, r⟩
      rw [hx] at hne
      have key : ∀ (m : List (Nat × Nat)) (t0 : St α), (forMem roots (fun r _ (x : St α × M) => ((pdfRoot g nd.dens m ps r x.1).1, x.2 * (pdfRoot g nd.dens m ps r x.1).2)) (t0, (1 : M))).1.visited
          = t0.visited := by
        intro m t0
        refine forMem_inv (fun x : St α × M => x.1.visited = t0.visited) _ _ _ (fun r hr' x hx => ?_) rfl
        show (pdfRoot g nd.dens m ps r x.1).1.visited = t0.visited
        rw [pdfRoot]
        refine forMem_inv (fun x : St α × M => x.1.visited = t0.visited) _ _ _ (fun p hp x hx => ?_) hx
        show (pdfNode g nd.dens m ps p x.1).1.visited = t0.visited
        rw [pdfNode_visited, hx]
      rcases r with (i | _) | k
      · exact key _ _
      · exact absurd rfl hne
      · exact key _ _
    intro v
    rw [hvis]
    exact hcl2 v

/-- C213, for the second and all later calls. An operation was interrupted at any point (`Left`). Once one further operation of the graph has returned, no mark is left,
and all later calls behave as on a fresh graph that holds the same values. Missing: that the first call after the interruption does (it need not, see below). -/
theorem C213_recovers_partial [CommMonoid M] (nd : Nodes α M) (roots : List Nat) (hap : RootsApart g roots) (s t : St α) (hs : Clean s) (hl : Left g roots s t) (c : Call α) (hc : c.resets)
    (hr : (run g nd roots t c).2.returned) :
    Clean (run g nd roots t c).1 ∧ ∀ s', Reach g nd roots (run g nd roots t c).1 s' → Clean s' ∧ ∀ c' : Call α, (run g nd roots s' c').2.returned →
      (run g nd roots s' c').2 = (run g nd roots ⟨fun _ => false, fun _ => false, s'.value⟩ c').2 ∧
      (run g nd roots s' c').1.value = (run g nd roots ⟨fun _ => false, fun _ => false, s'.value⟩ c').1.value := by
  have hcl := run_clean nd roots t (hl.onlyIn g hs) c hc hr
  exact ⟨hcl, fun s' hs' => C03_no_residue g nd roots hap _ s' hcl hs'⟩

/-- The same after `set_parameters` has raised an exception. -/
theorem C213_after_raise_partial [CommMonoid M] (nd : Nodes α M) (roots : List Nat) (hap : RootsApart g roots) (s t : St α) (hs : Clean s) (ps : List α)
    (hl : setParameters g nd.chk roots ps s = (t, .error .raised)) (c : Call α) (hc : c.resets) (hr : (run g nd roots t c).2.returned) :
    Clean (run g nd roots t c).1 ∧ ∀ s', Reach g nd roots (run g nd roots t c).1 s' → Clean s' ∧ ∀ c' : Call α, (run g nd roots s' c').2.returned →
      (run g nd roots s' c').2 = (run g nd roots ⟨fun _ => false, fun _ => false, s'.value⟩ c').2 ∧
      (run g nd roots s' c').1.value = (run g nd roots ⟨fun _ => false, fun _ => false, s'.value⟩ c').1.value := by
  have ht := setParameters_raised (inGraph_parents (g := g) roots) nd.chk ps roots (fun r hr => .inl hr) s (fun v hv => by rw [hs v] at hv; cases hv) (by rw [hl])
  rw [hl] at ht
  have hcl := run_clean nd roots t ht c hc hr
  exact ⟨hcl, fun s' hs' => C03_no_residue g nd roots hap _ s' hcl hs'⟩

/-- `C03_after_exception_violated` shows a vector for which `set_parameters` raises. -/
example : ∃ t : St Int, setParameters chainG (fun _ _ _ => .accept) [2] [7] (St.blank : St Int) = (t, .error .raised) ∧
    Clean (run (M := Int) chainG ⟨fun _ _ _ => .accept, fun _ _ _ => 1, ⟨fun _ _ _ => none, fun _ _ _ => true⟩⟩ [2] t .get).1 := by
  obtain ⟨t, h, -⟩ := C03_after_exception_violated
  exact ⟨t, h, (C213_after_raise_partial ⟨fun _ _ _ => .accept, fun _ _ _ => 1, ⟨fun _ _ _ => none, fun _ _ _ => true⟩⟩ [2] chainG_apart _ t blank_clean [7] h .get trivial trivial).1⟩

/-! ### A concrete interruption -/

/-- `sample_from_prior` on `chainG` was interrupted while node 0 was drawn; the values 5 and 6 were stored before. -/
def interrupted : St Int := mark (mark ⟨fun _ => false, fun _ => false, fun v => if v = 0 then some 5 else if v = 1 then some 6 else none⟩ 1) 0

theorem interrupted_left : Left chainG [2] ⟨fun _ => false, fun _ => false, fun v => if v = 0 then some 5 else if v = 1 then some 6 else none⟩ interrupted :=
  .mark 0 (.mark 1 .start (.inr ⟨2, by simp, .input (by simp [chainG, G.ofTable])⟩)) (.inr ⟨2, by simp, .step (p := 1) (.input (by simp [chainG, G.ofTable])) (by simp [chainG, G.ofTable])⟩)

/-- C213 fails for the first call after an interruption: `get_parameters` does not list the parameters that are marked. -/
theorem C213_get_violated : ∃ s t : St Int, Clean s ∧ Left chainG [2] s t ∧ (getParameters chainG [2] t).2 = [] ∧
    (getParameters chainG [2] ⟨fun _ => false, fun _ => false, t.value⟩).2 = [some 6, some 5] := by
  have h2 : chainG.parents 2 = [1] := rfl
  refine ⟨_, interrupted, fun _ => rfl, interrupted_left, ?_, ?_⟩
  · simp [getParameters, forMem, getRoot_unfold, getStep, h2, interrupted, mark]
  · rw [(getParameters_eq chainG [2] _ fun _ => rfl).1, chainG_order]
    simp [interrupted, mark]

/-- And `sample_from_prior` returns without drawing anything: the parameters keep their values, whatever the random numbers are. -/
theorem C213_sample_violated (sm : Sim Int) (clock : Nat) : ∃ s t : St Int, Clean s ∧ Left chainG [2] s t ∧
    ∃ s', sampleFromPrior chainG sm [2] 1 ⟨t, clock, []⟩ = some s' ∧ s'.log = [] ∧ s'.clock = clock ∧ s'.st.value = t.value := by
  have h2 : chainG.parents 2 = [1] := rfl
  refine ⟨_, interrupted, fun _ => rfl, interrupted_left, ?_⟩
  simp [sampleFromPrior, sampleAttempt, forMemE, sampleRoot_unfold, sampleStep, loopE, h2, interrupted, mark, resetFlags_eq]

/-- After that call the next one reads both parameters again. -/
example : (getParameters chainG [2] (getParameters chainG [2] interrupted).1).2 = [some 6, some 5] := by
  have h : Clean (getParameters chainG [2] interrupted).1 := (C213_recovers_partial (M := Int) ⟨fun _ _ _ => .accept, fun _ _ _ => 1, ⟨fun _ _ _ => none, fun _ _ _ => true⟩⟩ [2] chainG_apart _ interrupted (fun _ => rfl) interrupted_left .get trivial
    trivial).1
  have h2 : chainG.parents 2 = [1] := rfl
  have hv : (getParameters chainG [2] interrupted).1.value = interrupted.value := by
    simp [getParameters, forMem, getRoot_unfold, getStep, h2, interrupted, mark, resetFlags_eq]
  rw [(getParameters_eq chainG [2] _ h).1, chainG_order]
  change [(getParameters chainG [2] interrupted).1.value 1, (getParameters chainG [2] interrupted).1.value 0] = _
  rw [hv]
  simp [interrupted, mark]

end Verif.Graph
