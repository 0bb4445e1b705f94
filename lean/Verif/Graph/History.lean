import Verif.Graph.PropsLemmas
/-
Histories of graph operations (used by C03).
-/
namespace Verif.Graph

variable {α M : Type} [CommMonoid M] (g : G)

/-- The public graph operations. `sample k t` is `sample_from_prior` with at most `k` attempts, starting at
position `t` of the random stream. -/
inductive Call (α : Type)
  | get
  | set (ps : List α)
  | mapping
  | managerMapping
  | columns (models : List Nat) (rows : List (List α))
  | ordering (pairs : List (Nat × List α))
  | sample (attempts clock : Nat)
  | density (ps : List α)

/-- What the caller sees. -/
inductive Out (α M : Type)
  | values (l : List (Option α))
  | setResult (r : Except SetFail Nat)
  | mapping (m : List (Nat × Nat) × Nat)
  | columns (l : List (List (Option α)))
  | vector (l : List α)
  | sampled (draws : List (Nat × Bool)) (clock : Nat)
  | density (d : M)
  | unfinished

/-- The call returned (no exception, no endless retry). -/
def Out.returned : Out α M → Prop
  | .setResult (.error .raised) => False
  | .unfinished => False
  | _ => True

/-- The behaviour of the nodes: support checks, densities, simulation. -/
structure Nodes (α M : Type) where
  chk : (Nat → Option α) → Nat → α → Verdict
  dens : (Nat → Option α) → Nat → Option α → M
  sim : Sim α

/-- One call. -/
def run (nd : Nodes α M) (roots : List Nat) (s : St α) : Call α → St α × Out α M
  | .get => let (s, l) := getParameters g roots s; (s, .values l)
  | .set ps => let (s, r) := setParameters g nd.chk roots ps s; (s, .setResult r)
  | .mapping => let (s, m) := getMapping g roots s; (s, .mapping m)
  | .managerMapping => let (s, m) := mgetMapping g roots s; (s, .mapping m)
  | .columns models rows => let (s, l) := acceptedValues g roots s models rows; (s, .columns l)
  | .ordering pairs => let (s, l) := correctOrdering g roots pairs s; (s, .vector l)
  | .sample k t =>
    match sampleFromPrior g nd.sim roots k ⟨s, t, []⟩ with
    | some s' => (s'.st, .sampled s'.log s'.clock)
    | none => (s, .unfinished)
  | .density ps =>
    match pdfOfPrior g nd.chk nd.dens roots ps s with
    | (s, some d) => (s, .density d)
    | (s, none) => (s, .unfinished)

/-- A history of calls; it stops when a call does not return. -/
inductive Reach (nd : Nodes α M) (roots : List Nat) : St α → St α → Prop
  | start {s} : Reach nd roots s s
  | call {s s'} (c : Call α) : Reach nd roots s s' → (run g nd roots s' c).2.returned →
      Reach nd roots s (run g nd roots s' c).1

/-! ### Sampling does not look at `calculated_pdf` -/

def withMemo (m : Nat → Bool) (s : Smp α) : Smp α := { s with st := { s.st with memo := m } }

def mapBoth {σ τ : Type} (f : σ → τ) : Except σ σ → Except τ τ
  | .ok s => .ok (f s)
  | .error s => .error (f s)

theorem loopE_mapBoth {σ : Type} (f : Nat → σ → Except σ σ) (w : σ → σ) (l : List Nat)
    (h : ∀ p ∈ l, ∀ s, f p (w s) = mapBoth w (f p s)) (s : σ) :
    loopE f l (w s) = mapBoth w (loopE f l s) := by
  induction l generalizing s with
  | nil => rfl
  | cons p l ih =>
    rw [loopE, loopE, h p (by simp)]
    cases f p s with
    | error e => rfl
    | ok s' => exact ih (fun q hq => h q (by simp [hq])) s'

theorem drawNode_withMemo (sm : Sim α) (m : Nat → Bool) (v : Nat) (s : Smp α) :
    drawNode g sm v (withMemo m s) = (withMemo m (drawNode g sm v s).1, (drawNode g sm v s).2) := by
  unfold drawNode withMemo
  by_cases hk : g.kind v = .hyper
  · simp [hk, mark]
  · simp only [hk, if_false]
    cases sm.sim s.st.value v s.clock with
    | none => rfl
    | some x => by_cases hx : sm.okOut s.st.value v x <;> simp [hx, store]

theorem sampleNode_withMemo (sm : Sim α) (m : Nat → Bool) (v : Nat) (s : Smp α) :
    sampleNode g sm v (withMemo m s) = mapBoth (withMemo m) (sampleNode g sm v s) := by
  induction v using Nat.strong_induction_on generalizing s with
  | _ v ih =>
    rw [sampleNode_unfold, sampleNode_unfold, loopE_mapBoth (sampleStep g sm) (withMemo m)]
    · cases loopE (sampleStep g sm) (g.parents v) s with
      | error s' => rfl
      | ok s' =>
        simp only [mapBoth, drawNode_withMemo]
        rcases drawNode g sm v s' with ⟨s'', _ | _⟩ <;> rfl
    · intro p hp s
      simp only [sampleStep]
      have : (withMemo m s).st.visited = s.st.visited := rfl
      rw [this]
      split
      · rfl
      · exact ih p (g.lt_of_parent hp) { s with st := mark s.st p }

theorem sampleRoot_withMemo (sm : Sim α) (m : Nat → Bool) (v : Nat) (s : Smp α) :
    sampleRoot g sm v (withMemo m s) = mapBoth (withMemo m) (sampleRoot g sm v s) := by
  rw [sampleRoot_unfold, sampleRoot_unfold, loopE_mapBoth (sampleStep g sm) (withMemo m)]
  · cases loopE (sampleStep g sm) (g.parents v) s <;> rfl
  · intro p hp s
    simp only [sampleStep]
    have : (withMemo m s).st.visited = s.st.visited := rfl
    rw [this]
    split
    · rfl
    · exact sampleNode_withMemo g sm m p { s with st := mark s.st p }

theorem sampleAttempt_withMemo (sm : Sim α) (m : Nat → Bool) (roots : List Nat) (s : Smp α) :
    sampleAttempt g sm roots (withMemo m s) = mapBoth (withMemo m) (sampleAttempt g sm roots s) := by
  have e : ∀ s, sampleAttempt g sm roots s = loopE (sampleRoot g sm) roots s := fun s => forMemE_eq_loopE roots _ _
  rw [e, e, loopE_mapBoth]
  intro p _ s
  exact sampleRoot_withMemo g sm m p s

/-- Two sampling states that differ in `calculated_pdf` only. -/
def SameButMemo (s t : Smp α) : Prop :=
  s.st.visited = t.st.visited ∧ s.st.value = t.st.value ∧ s.clock = t.clock ∧ s.log = t.log

theorem SameButMemo.eq {s t : Smp α} (h : SameButMemo s t) : t = withMemo t.st.memo s := by
  obtain ⟨⟨v, m, x⟩, c, l⟩ := s
  obtain ⟨⟨v', m', x'⟩, c', l'⟩ := t
  obtain ⟨h1, h2, h3, h4⟩ := h
  simp only at h1 h2 h3 h4
  subst h1; subst h2; subst h3; subst h4
  rfl

theorem sampleFromPrior_congr (sm : Sim α) (roots : List Nat) (n : Nat) (s t : Smp α)
    (h : SameButMemo { s with log := [] } { t with log := [] }) :
    match sampleFromPrior g sm roots n s, sampleFromPrior g sm roots n t with
    | some s', some t' => SameButMemo s' t'
    | none, none => True
    | _, _ => False := by
  induction n generalizing s t with
  | zero => simp [sampleFromPrior]
  | succ n ih =>
    simp only [sampleFromPrior]
    have e := h.eq
    rw [e, sampleAttempt_withMemo]
    cases sampleAttempt g sm roots { s with log := [] } with
    | ok s' =>
      simp only [mapBoth]
      refine ⟨?_, ?_, rfl, rfl⟩
      · simp only [resetFlags_eq, withMemo]
      · simp only [resetFlags_value, withMemo]
    | error s' =>
      simp only [mapBoth]
      apply ih
      refine ⟨?_, ?_, rfl, rfl⟩
      · simp only [resetFlags_eq, withMemo]
      · simp only [resetFlags_value, withMemo]

/-- Every attempt of a call of `sample_from_prior` starts from a clean graph; the last one, if successful, leaves one. -/
theorem sampleFromPrior_spec (sm : Sim α) (roots : List Nat) (hap : RootsApart g roots) (n : Nat) (s : Smp α)
    (h : Clean s.st) (s' : Smp α) (hs : sampleFromPrior g sm roots n s = some s') :
    LogOk g s' ∧ (∀ q, q ∈ drawn s' ↔ q ∈ above g roots) ∧ Clean s'.st := by
  induction n generalizing s with
  | zero => simp [sampleFromPrior] at hs
  | succ n ih =>
    have key := sampleAttempt_spec g sm roots hap { s with log := [] } h rfl
    simp only [sampleFromPrior] at hs
    cases hr : sampleAttempt g sm roots { s with log := [] } with
    | ok s1 =>
      rw [hr] at key hs
      simp only [Option.some.injEq] at hs
      subst hs
      exact ⟨⟨key.1.nodup, key.1.topo, key.1.allOk⟩, key.2.1, key.2.2⟩
    | error s1 =>
      rw [hr] at key hs
      exact ih _ key.2.2 hs

/-! ### The density -/

/-- The density formula evaluated by `pdf_of_prior` once the vector has been stored. -/
theorem pdfOfPrior_eq (chk : (Nat → Option α) → Nat → α → Verdict) (dens : (Nat → Option α) → Nat → Option α → M)
    (roots : List Nat) (hap : RootsApart g roots) (ps : List α) (s : St α) (h : Clean s) :
    (setParameters g chk roots ps s).2 = .error .raised ∧ (pdfOfPrior g chk dens roots ps s).2 = none ∨
    (setParameters g chk roots ps s).2 ≠ .error .raised ∧
      (pdfOfPrior g chk dens roots ps s).2 = some (pdfVal g (fun v => dens (setParameters g chk roots ps s).1.value v
          (if v ∈ order g roots then ps[(order g roots).idxOf v]? else none)) (fun _ => false) (above g roots)) ∧
      (pdfOfPrior g chk dens roots ps s).1.value = (setParameters g chk roots ps s).1.value ∧
      Clean (pdfOfPrior g chk dens roots ps s).1 := by
  have hset := setParameters_eq g chk ps roots hap s h
  by_cases hr : (setParameters g chk roots ps s).2 = .error .raised
  · left
    refine ⟨hr, ?_⟩
    simp only [pdfOfPrior]
    rcases hsp : setParameters g chk roots ps s with ⟨s1, r⟩
    rw [hsp] at hr
    simp only at hr
    subst hr
    rfl
  · right
    have hclean : Clean (setParameters g chk roots ps s).1 := by
      revert hset
      split
      · intro hset; exact hset.2.2
      · intro hset; exact hset.2.2
      · intro hset; exact absurd hset.1 hr
    refine ⟨hr, ?_⟩
    have e : pdfOfPrior g chk dens roots ps s =
        (let s1 := (setParameters g chk roots ps s).1
         let y := getMapping g roots s1
         let z := roots.foldl (fun (x : St α × M) r => ((pdfRoot g dens y.2.1 ps r x.1).1, x.2 * (pdfRoot g dens y.2.1 ps r x.1).2))
            (y.1, (1 : M))
         (z.1, some z.2)) := by
      rw [pdfOfPrior]
      rcases hsp : setParameters g chk roots ps s with ⟨s1, r⟩
      rw [hsp] at hr
      have : ∀ m (s1 : St α), (forMem roots (fun r _ (x : St α × M) =>
          match x with | (s, acc) => (let (s', d) := pdfRoot g dens m ps r s; (s', acc * d))) (s1, (1 : M))) =
          roots.foldl (fun (x : St α × M) r => ((pdfRoot g dens m ps r x.1).1, x.2 * (pdfRoot g dens m ps r x.1).2)) (s1, (1 : M)) :=
        fun m s1 => forMem_eq_foldl roots _ _
      match r, hr with
      | .ok k, _ => simp only [this]
      | .error (.rejected i), _ => simp only [this]
      | .error .raised, hr => exact absurd rfl hr
    obtain ⟨m1, m2, m3, m4⟩ := getMapping_eq g roots hap _ hclean
    have hp := pdfRoots_eq g dens (getMapping g roots (setParameters g chk roots ps s).1).2.1 ps
      (setParameters g chk roots ps s).1.value roots (getMapping g roots (setParameters g chk roots ps s).1).1 (1 : M) m3
      (fun v hv _ => m4 v hv)
    rw [e]
    simp only [hp, one_mul]
    refine ⟨?_, m3, m2⟩
    rw [m1]
    have hmi : ∀ v, ((mapIndex (order g roots).zipIdx v).bind fun i => ps[i]?) =
        (if v ∈ order g roots then ps[(order g roots).idxOf v]? else none) := by
      intro v
      have := mapIndex_zipIdx (order g roots) 0 v
      rw [this]
      by_cases hv : v ∈ order g roots <;> simp [hv]
    simp only [hmi]
    congr 1
    simp only [pdfVal]
    rw [fresh_congr (vis' := fun _ => false)]
    intro x hx
    exact m4 x (List.mem_of_mem_filter hx)

/-- One call on two clean graphs with the same stored values. -/
theorem run_congr (nd : Nodes α M) (roots : List Nat) (hap : RootsApart g roots) (s t : St α) (hs : Clean s)
    (ht : Clean t) (hv : s.value = t.value) (c : Call α) (hr : (run g nd roots s c).2.returned) :
    (run g nd roots s c).2 = (run g nd roots t c).2 ∧ (run g nd roots s c).1.value = (run g nd roots t c).1.value ∧
    Clean (run g nd roots s c).1 := by
  have hset : ∀ ps, (setParameters g nd.chk roots ps s).2 = (setParameters g nd.chk roots ps t).2 ∧
      (setParameters g nd.chk roots ps s).1.value = (setParameters g nd.chk roots ps t).1.value ∧
      ((setParameters g nd.chk roots ps s).2 ≠ .error .raised → Clean (setParameters g nd.chk roots ps s).1) := by
    intro ps
    have a := setParameters_eq g nd.chk ps roots hap s hs
    have b := setParameters_eq g nd.chk ps roots hap t ht
    rw [hv] at a
    revert a b
    split
    · rintro ⟨a1, a2, a3⟩ ⟨b1, b2, b3⟩; exact ⟨by rw [a1, b1], by rw [a2, b2], fun _ => a3⟩
    · rintro ⟨a1, a2, a3⟩ ⟨b1, b2, b3⟩; exact ⟨by rw [a1, b1], by rw [a2, b2], fun _ => a3⟩
    · rintro ⟨a1, a2⟩ ⟨b1, b2⟩; exact ⟨by rw [a1, b1], by rw [a2, b2], fun h => absurd a1 h⟩
  cases c with
  | get =>
    obtain ⟨a1, a2, a3⟩ := getParameters_eq g roots s hs
    obtain ⟨b1, b2, b3⟩ := getParameters_eq g roots t ht
    exact ⟨by simp only [run]; rw [a1, b1, hv], by simp only [run]; rw [a3, b3, hv], a2⟩
  | set ps =>
    obtain ⟨a1, a2, a3⟩ := hset ps
    refine ⟨by simp only [run]; rw [a1], a2, a3 fun h => ?_⟩
    simp only [run, h] at hr
    exact hr
  | mapping =>
    obtain ⟨a1, a2, a3, _⟩ := getMapping_eq g roots hap s hs
    obtain ⟨b1, b2, b3, _⟩ := getMapping_eq g roots hap t ht
    exact ⟨by simp only [run]; rw [a1, b1], by simp only [run]; rw [a3, b3, hv], a2⟩
  | managerMapping =>
    obtain ⟨a1, a2, a3⟩ := mgetMapping_eq g roots hap s hs
    obtain ⟨b1, b2, b3⟩ := mgetMapping_eq g roots hap t ht
    exact ⟨by simp only [run]; rw [a1, b1], by simp only [run]; rw [a3, b3, hv], a2⟩
  | columns models rows =>
    obtain ⟨a1, a2, a3⟩ := mgetMapping_eq g roots hap s hs
    obtain ⟨b1, b2, b3⟩ := mgetMapping_eq g roots hap t ht
    exact ⟨by simp only [run, acceptedValues, a1, b1], by simp only [run, acceptedValues]; rw [a3, b3, hv], a2⟩
  | ordering pairs =>
    obtain ⟨a1, a2, a3⟩ := correctOrdering_eq g pairs roots s hs
    obtain ⟨b1, b2, b3⟩ := correctOrdering_eq g pairs roots t ht
    exact ⟨by simp only [run]; rw [a1, b1], by simp only [run]; rw [a3, b3, hv], a2⟩
  | sample k c =>
    have hvis : s.visited = t.visited := by funext v; rw [hs v, ht v]
    have key := sampleFromPrior_congr g nd.sim roots k ⟨s, c, []⟩ ⟨t, c, []⟩ ⟨hvis, hv, rfl, rfl⟩
    simp only [run] at hr ⊢
    cases h1 : sampleFromPrior g nd.sim roots k ⟨s, c, []⟩ with
    | none => rw [h1] at hr; exact absurd hr id
    | some s' =>
      cases h2 : sampleFromPrior g nd.sim roots k ⟨t, c, []⟩ with
      | none => rw [h1, h2] at key; exact absurd key id
      | some t' =>
        rw [h1, h2] at key
        obtain ⟨k1, k2, k3, k4⟩ := key
        exact ⟨by simp only [k3, k4], k2, (sampleFromPrior_spec g nd.sim roots hap k _ hs s' h1).2.2⟩
  | density ps =>
    obtain ⟨a1, a2, a3⟩ := hset ps
    rcases pdfOfPrior_eq g nd.chk nd.dens roots hap ps s hs with ⟨p1, p2⟩ | ⟨p1, p2, p3, p4⟩
    · simp only [run] at hr
      rcases hp : pdfOfPrior g nd.chk nd.dens roots ps s with ⟨s', d⟩
      rw [hp] at p2 hr
      simp only at p2
      subst p2
      exact absurd hr id
    · rcases pdfOfPrior_eq g nd.chk nd.dens roots hap ps t ht with ⟨q1, q2⟩ | ⟨q1, q2, q3, q4⟩
      · rw [a1] at p1; exact absurd q1 p1
      · simp only [run]
        rcases hp : pdfOfPrior g nd.chk nd.dens roots ps s with ⟨s', d⟩
        rcases hq : pdfOfPrior g nd.chk nd.dens roots ps t with ⟨t', d'⟩
        rw [hp] at p2 p3 p4
        rw [hq] at q2 q3 q4
        simp only at p2 p3 p4 q2 q3 q4
        subst p2; subst q2
        refine ⟨by simp only [a2], by simp only [p3, q3, a2], p4⟩

end Verif.Graph
