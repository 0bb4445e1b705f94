import Verif.Site.Props
import Verif.Schedule.Runs
/-
C139: on the graph, the tasks of the samplers do what the samplers do over parameter vectors: the models of `Verif.Pmc`, `Verif.Smc` and others with an environment that has no stored values.
-/
namespace Verif.Site

open Graph

variable {α Y K : Type}

/-- Specification of a graph that keeps no secrets: as in `Sound`, and the support checks do not read stored values and do not raise, a density reads the values of the nodes above only, there are no arithmetic
expressions above the observed models, draws of the prior lie in the declared supports, and the kernel does not raise. -/
structure Plain (S : Site α Y K) : Prop extends Sound S where
  checks : ∀ vals vals' v x, S.chk vals v x = S.chk vals' v x
  noRaise : ∀ vals v x, S.chk vals v x ≠ .raise
  densReads : ∀ vals vals' v o, (∀ q, Anc S.g q v → vals q = vals' q) → S.dens vals v o = S.dens vals' v o
  noOps : ∀ r ∈ S.roots, ∀ q, Anc S.g q r → S.g.kind q ≠ .op
  proper : ∀ seed, Proper S.g (S.prior seed)
  noFail : ∀ k seed c, (S.update k seed c).2 ≠ none

/-- A graph that was not used yet. -/
def fresh (consts : Nat → Option α) : St α := ⟨fun _ => false, fun _ => false, consts⟩

theorem fresh_good (S : Site α Y K) (consts : Nat → Option α) : Good S consts (fresh consts) := ⟨fun _ => rfl, fun _ _ => rfl⟩

/-- Draws of the prior from a graph that was not used yet, for a worker given by seed and position. -/
def aPrior (S : Site α Y K) (consts : Nat → Option α) (p : Nat × Nat) : (Nat × Nat) × List (Option α) :=
  match sampleFromPrior S.g (S.prior p.1) S.roots S.tries ⟨fresh consts, p.2, []⟩ with
  | none => (p, [])
  | some s => ((p.1, s.clock), (order S.g S.roots).map s.st.value)

/-- Perturbation on a graph that was not used yet. -/
def aPerturb (S : Site α Y K) (consts : Nat → Option α) (k : K) (p : Nat × Nat) : (Nat × Nat) × Option (List (Option α)) :=
  match perturb S k ⟨p.1, fresh consts, p.2⟩ with
  | none => (p, none)
  | some (w, o) => ((w.seed, w.clock), o.map fun ps => ps.map some)

/-- The prior density of a vector on a graph that was not used yet (C07 says what it is). -/
noncomputable def aPdf (S : Site α Y K) (consts : Nat → Option α) (θ : List (Option α)) : ℝ :=
  ((pdfOfPrior S.g S.chk S.dens S.roots θ.reduceOption (fresh consts)).2).getD 0

/-- A simulation with the values of a vector. -/
def aSim (S : Site α Y K) (consts : Nat → Option α) (θ : List (Option α)) (p : Nat × Nat) : (Nat × Nat) × Y :=
  ((p.1, (S.simulate p.1 (valuesOf S consts θ) p.2).1), (S.simulate p.1 (valuesOf S consts θ) p.2).2)

/-- Seed and position. -/
def Worker.pos (w : Worker α) : Nat × Nat := (w.seed, w.clock)

theorem reduce_map_some (ps : List α) : (ps.map some).reduceOption = ps := by
  simp [List.reduceOption, List.filterMap_map]

/-! ### The operations -/

theorem set_same (S : Site α Y K) (hS : Plain S) (consts : Nat → Option α) (ps : List α) (hlen : ps.length = (order S.g S.roots).length) (s t : St α) (hs : Good S consts s) (ht : Good S consts t) :
    (setParameters S.g S.chk S.roots ps s).2 = (setParameters S.g S.chk S.roots ps t).2 ∧ (setParameters S.g S.chk S.roots ps s).2 ≠ .error .raised := by
  have hchk : ∀ vals, S.chk vals = S.chk fun _ => none := fun vals => by funext v x; exact hS.checks _ _ _ _
  have hassign : ∀ (L : List Nat) (i : Nat) (val val' : Nat → Option α), i + L.length ≤ ps.length →
      (∃ a b k, assignInOrder S.chk ps L i val = .ok (a, k) ∧ assignInOrder S.chk ps L i val' = .ok (b, k)) ∨
      ∃ a b k, assignInOrder S.chk ps L i val = .error (.rejected k, a) ∧ assignInOrder S.chk ps L i val' = .error (.rejected k, b) := by
    intro L
    induction L with
    | nil => intro i val val' _; exact .inl ⟨val, val', i, rfl, rfl⟩
    | cons v L ih =>
      intro i val val' hl
      rw [List.length_cons] at hl
      have hi : i < ps.length := by omega
      rw [assignInOrder, assignInOrder, List.getElem?_eq_getElem hi]
      simp only
      rw [hS.checks val' val]
      cases hc : S.chk val v ps[i] with
      | «raise» => exact absurd hc (hS.noRaise _ _ _)
      | reject => exact .inr ⟨val, val', i, rfl, rfl⟩
      | accept => exact ih (i + 1) _ _ (by omega)
  have k1 := setParameters_eq S.g S.chk ps S.roots hS.apart s hs.clean
  have k2 := setParameters_eq S.g S.chk ps S.roots hS.apart t ht.clean
  rcases hassign (order S.g S.roots) 0 s.value t.value (by omega) with ⟨a, b, k, h1, h2⟩ | ⟨a, b, k, h1, h2⟩
  · rw [h1] at k1
    rw [h2] at k2
    exact ⟨by rw [k1.1, k2.1], by rw [k1.1]; simp⟩
  · rw [h1] at k1
    rw [h2] at k2
    exact ⟨by rw [k1.1, k2.1], by rw [k1.1]; simp⟩

theorem ordering_same (S : Site α Y K) (pairs : List (Nat × List α)) (s t : St α) (hs : Clean s) (ht : Clean t) :
    (correctOrdering S.g S.roots pairs s).2 = (correctOrdering S.g S.roots pairs t).2 := by
  rw [(correctOrdering_eq S.g pairs S.roots s hs).1, (correctOrdering_eq S.g pairs S.roots t ht).1]

/-- The loop of `perturb` ends after the same number of attempts and with the same vector, whatever the nodes hold. -/
theorem perturbLoop_same (S : Site α Y K) (hS : Plain S) (consts : Nat → Option α) (k : K) (seed c : Nat) (fuel : Nat) : ∀ (e : Nat) (last : Option (List α)) (s t : St α), Good S consts s → Good S consts t →
    ∃ r, (Kernel.perturbLoop S.g S.chk S.roots (proposals S k seed c) fuel e last s).2 = some r ∧ (Kernel.perturbLoop S.g S.chk S.roots (proposals S k seed c) fuel e last t).2 = some r ∧
      ((fuel ≠ 0 ∨ last ≠ none) → r.2 ≠ none) := by
  induction fuel with
  | zero => intro e last s t _ _; exact ⟨(e, last), rfl, rfl, by simp⟩
  | succ fuel ih =>
    intro e last s t hs ht
    rw [Kernel.perturbLoop, Kernel.perturbLoop]
    cases hp : proposals S k seed c e with
    | none => exact absurd hp (hS.noFail _ _ _)
    | some pairs =>
      simp only
      have hgood : ∀ s, Good S consts s → Good S consts (correctOrdering S.g S.roots pairs (resetFlags S.g S.roots s)).1 := by
        intro s hs
        have hcl := Kernel.clean_reset S.g S.roots s hs.clean
        obtain ⟨-, o2, o3⟩ := correctOrdering_eq S.g pairs S.roots _ hcl
        refine ⟨o2, fun q hq => ?_⟩
        rw [o3, resetFlags_eq]
        exact hs.consts q hq
      have hlen := ordering_length S hS.toSound k seed (after S k seed c e) pairs hp _ (Kernel.clean_reset S.g S.roots s hs.clean)
      have hord := ordering_same S pairs _ _ (Kernel.clean_reset S.g S.roots s hs.clean) (Kernel.clean_reset S.g S.roots t ht.clean)
      have hgs := hgood s hs
      have hgt := hgood t ht
      generalize correctOrdering S.g S.roots pairs (resetFlags S.g S.roots s) = cs at hlen hord hgs ⊢
      generalize correctOrdering S.g S.roots pairs (resetFlags S.g S.roots t) = ct at hord hgt ⊢
      obtain ⟨s1, ps⟩ := cs
      obtain ⟨t1, qs⟩ := ct
      simp only at hlen hord hgs hgt ⊢
      subst hord
      obtain ⟨e1, e2⟩ := set_same S hS consts ps hlen s1 t1 hgs hgt
      have c1 := set_cases S hS.apart consts ps s1 hgs
      have c2 := set_cases S hS.apart consts ps t1 hgt
      generalize setParameters S.g S.chk S.roots ps s1 = sp at e1 e2 c1 ⊢
      generalize setParameters S.g S.chk S.roots ps t1 = tp at e1 c2 ⊢
      obtain ⟨s2, o⟩ := sp
      obtain ⟨t2, o'⟩ := tp
      simp only at e1 e2 c1 c2
      subst e1
      cases o with
      | ok k => exact ⟨(e, some ps), rfl, rfl, by simp⟩
      | error err =>
        cases err with
        | raised => exact absurd rfl e2
        | rejected i =>
          simp only
          obtain ⟨r, r1, r2, r3⟩ := ih (e + 1) (some ps) s2 t2 (c1.resolve_left (by simp)).1 (c2.resolve_left (by simp)).1
          exact ⟨r, r1, r2, fun _ => r3 (.inr (by simp))⟩

theorem perturb_same (S : Site α Y K) (hS : Plain S) (consts : Nat → Option α) (k : K) (w : Worker α) (hw : Good S consts w.st) :
    ∃ w' o, perturb S k w = some (w', o) ∧ Good S consts w'.st ∧ w'.seed = w.seed ∧ (∀ ps, o = some ps → ps.length = (order S.g S.roots).length) ∧
      aPerturb S consts k w.pos = (w'.pos, o.map fun ps => ps.map some) := by
  obtain ⟨r, h1, h2, h3⟩ := perturbLoop_same S hS consts k w.seed w.clock 100 0 none w.st (fresh consts) hw (fresh_good S consts)
  have key : ∀ st : St α, (Kernel.perturbLoop S.g S.chk S.roots (proposals S k w.seed w.clock) 100 0 none st).2 = some r →
      ∃ s', perturb S k ⟨w.seed, st, w.clock⟩ = some (⟨w.seed, s', after S k w.seed w.clock (min (r.1 + 1) 100)⟩, if r.1 = 10 then none else r.2) := by
    intro st h
    unfold perturb Kernel.perturb
    simp only
    generalize Kernel.perturbLoop S.g S.chk S.roots (proposals S k w.seed w.clock) 100 0 none st = pl at h
    obtain ⟨s, o⟩ := pl
    simp only at h
    subst h
    obtain ⟨e, last⟩ := r
    simp only
    by_cases he : e = 10
    · simp [he]
    · simp only [he, if_false]
      cases last with
      | none => exact absurd rfl (h3 (.inl (by simp)))
      | some ps => exact ⟨s, rfl⟩
  obtain ⟨s1, k1⟩ := key w.st h1
  obtain ⟨s2, k2⟩ := key (fresh consts) h2
  refine ⟨_, _, k1, ?_⟩
  obtain ⟨g1, g2, g3⟩ := perturb_good S hS.toSound consts k w _ _ hw k1
  refine ⟨g1, g2, g3, ?_⟩
  unfold aPerturb Worker.pos
  simp only
  rw [k2]

/-- Above the observed models: parameters and constants. -/
theorem above_cases (S : Site α Y K) (hS : Plain S) (q : Nat) (hq : ∃ r ∈ S.roots, Anc S.g q r) : q ∈ order S.g S.roots ∨ S.g.kind q = .hyper := by
  obtain ⟨r, hr, ha⟩ := hq
  cases hk : S.g.kind q with
  | hyper => exact .inr rfl
  | op => exact absurd hk (hS.noOps r hr q ha)
  | cont => exact .inl ((mem_order _ _ _).2 ⟨by rw [hk]; rfl, r, hr, ha⟩)
  | disc => exact .inl ((mem_order _ _ _).2 ⟨by rw [hk]; rfl, r, hr, ha⟩)

/-- The nodes hold a vector. -/
def Holds (S : Site α Y K) (s : St α) (θ : List (Option α)) : Prop := (order S.g S.roots).map s.value = θ

theorem pdf_same (S : Site α Y K) (hS : Plain S) (consts : Nat → Option α) (ps : List α) (hlen : ps.length = (order S.g S.roots).length) (s : St α) (hs : Good S consts s) :
    ∃ s', pdfOfPrior S.g S.chk S.dens S.roots ps s = (s', some (aPdf S consts (ps.map some))) ∧ Good S consts s' ∧ (aPdf S consts (ps.map some) ≠ 0 → Holds S s' (ps.map some)) := by
  have hval : ∀ s t : St α, Good S consts s → Good S consts t → ∃ d, (pdfOfPrior S.g S.chk S.dens S.roots ps s).2 = some d ∧ (pdfOfPrior S.g S.chk S.dens S.roots ps t).2 = some d := by
    intro s t hs ht
    obtain ⟨e1, e2⟩ := set_same S hS consts ps hlen s t hs ht
    rcases pdfOfPrior_eq S.g S.chk S.dens S.roots hS.apart ps s hs.clean with ⟨p1, -⟩ | ⟨-, p2, -, -⟩
    · exact absurd p1 e2
    rcases pdfOfPrior_eq S.g S.chk S.dens S.roots hS.apart ps t ht.clean with ⟨q1, -⟩ | ⟨-, q2, -, -⟩
    · rw [← e1] at q1; exact absurd q1 e2
    rw [p2, q2]
    refine ⟨_, rfl, congrArg some ?_⟩
    rcases set_cases S hS.apart consts ps s hs with h | ⟨gs, ⟨j, hj, h2, h3⟩ | ⟨i, h1, hi, x, hx, hc⟩⟩
    · exact absurd h e2
    · rcases set_cases S hS.apart consts ps t ht with h | ⟨gt, ⟨j', -, h2', h3'⟩ | ⟨i, h1, -⟩⟩
      · rw [← e1] at h; exact absurd h e2
      · have hvals : ∀ q, (∃ r ∈ S.roots, Anc S.g q r) → (setParameters S.g S.chk S.roots ps t).1.value q = (setParameters S.g S.chk S.roots ps s).1.value q := by
          intro q hq
          rcases above_cases S hS q hq with hm | hm
          · have := h3'.trans h3.symm
            exact List.map_inj_left.1 this q hm
          · rw [gs.consts q hm, gt.consts q hm]
        have hd : ∀ v ∈ above S.g S.roots, ∀ o, S.dens (setParameters S.g S.chk S.roots ps t).1.value v o = S.dens (setParameters S.g S.chk S.roots ps s).1.value v o := by
          intro v hv o
          obtain ⟨r, hr, ha⟩ := (mem_above S.g S.roots v).1 hv
          exact hS.densReads _ _ _ _ fun q hq => hvals q ⟨r, hr, hq.trans ha⟩
        have hprod : ∀ l : List Nat, (∀ v ∈ l, v ∈ above S.g S.roots) → prodOver (fun v => S.dens (setParameters S.g S.chk S.roots ps t).1.value v (if v ∈ order S.g S.roots then ps[(order S.g S.roots).idxOf v]? else none)) l =
            prodOver (fun v => S.dens (setParameters S.g S.chk S.roots ps s).1.value v (if v ∈ order S.g S.roots then ps[(order S.g S.roots).idxOf v]? else none)) l := by
          intro l hl
          rw [prodOver, prodOver, List.map_congr_left fun v hv => hd v (hl v hv) _]
        rw [pdfVal, pdfVal, hprod _ fun v hv => (List.mem_filter.1 (mem_fresh.1 hv).1).1, hprod _ fun v hv => (List.mem_filter.1 hv).1]
      · rw [e1, h1] at hj
        cases hj
    · have z : ∀ t : St α, Good S consts t → pdfVal S.g (fun v => S.dens (setParameters S.g S.chk S.roots ps t).1.value v
          (if v ∈ order S.g S.roots then ps[(order S.g S.roots).idxOf v]? else none)) (fun _ => false) (above S.g S.roots) = 0 := by
        intro t ht
        apply pdfVal_zero S.g _ S.roots (order S.g S.roots)[i] (List.getElem_mem hi)
        rw [if_pos (List.getElem_mem hi), (order_nodup S.g S.roots).idxOf_getElem i hi, hx]
        exact hS.refused _ _ _ (by rw [hS.checks _ (setParameters S.g S.chk S.roots ps s).1.value]; exact hc)
      rw [z s hs, z t ht]
  obtain ⟨d, d1, d2⟩ := hval s (fresh consts) hs (fresh_good S consts)
  have hd : aPdf S consts (ps.map some) = d := by
    unfold aPdf
    rw [reduce_map_some, d2]
    rfl
  obtain ⟨g1, g2⟩ := pdf_cases S hS.toSound consts ps s hs d d1
  rw [hd]
  refine ⟨_, Prod.ext rfl d1, g1, fun hne => ?_⟩
  unfold Holds
  rw [(g2 hne).2, List.take_of_length_le hlen.le]

/-- The loop of proposals. -/
theorem propose_same (S : Site α Y K) (hS : Plain S) (consts : Nat → Option α) (k : K) (fuel : Nat) : ∀ (w : Worker α), Good S consts w.st →
    (propose S k fuel w = none ∧ Smc.propose (aPdf S consts) (aPerturb S consts k) fuel w.pos = none) ∨
    ∃ w' ps, propose S k fuel w = some (w', ps) ∧ Smc.propose (aPdf S consts) (aPerturb S consts k) fuel w.pos = some (w'.pos, ps.map some) ∧
      Good S consts w'.st ∧ w'.seed = w.seed ∧ Holds S w'.st (ps.map some) ∧ ps.length = (order S.g S.roots).length ∧ aPdf S consts (ps.map some) ≠ 0 := by
  classical
  induction fuel with
  | zero => intro w _; exact .inl ⟨rfl, rfl⟩
  | succ fuel ih =>
    intro w hw
    obtain ⟨v, o, h1, h2, h3, h4, h5⟩ := perturb_same S hS consts k w hw
    rw [propose, Smc.propose, h1, h5]
    cases o with
    | none =>
      simp only [Option.map_none]
      have := ih v h2
      rw [h3] at this
      exact this
    | some qs =>
      simp only [Option.map_some]
      obtain ⟨s', p1, p2, p3⟩ := pdf_same S hS consts qs (h4 qs rfl) v.st h2
      rw [p1]
      simp only
      by_cases hd : aPdf S consts (qs.map some) ≠ 0
      · rw [if_pos hd, if_pos hd]
        exact .inr ⟨⟨v.seed, s', v.clock⟩, qs, rfl, rfl, p2, h3, p3 hd, h4 qs rfl, hd⟩
      · rw [if_neg hd, if_neg hd]
        rcases ih ⟨v.seed, s', v.clock⟩ p2 with h | ⟨w', ps, b1, b2, b3, b4, b5⟩
        · exact .inl h
        · exact .inr ⟨w', ps, b1, b2, b3, b4.trans h3, b5⟩

/-- The prior never gives up: within the bound on the attempts, a draw from a graph that was not used yet succeeds. -/
def Draws (S : Site α Y K) (consts : Nat → Option α) : Prop :=
  ∀ seed c, sampleFromPrior S.g (S.prior seed) S.roots S.tries ⟨fresh consts, c, []⟩ ≠ none

theorem prior_same (S : Site α Y K) (hS : Plain S) (consts : Nat → Option α) (hd : Draws S consts) (w : Worker α) (hw : Good S consts w.st) :
    ∃ w' θ, priorDraw S w = some (w', θ) ∧ aPrior S consts w.pos = (w'.pos, θ) ∧ Good S consts w'.st ∧ w'.seed = w.seed ∧ Holds S w'.st θ := by
  have key := C123_prior S.g (S.prior w.seed) (hS.proper w.seed) S.roots hS.apart S.tries ⟨w.st, w.clock, []⟩ ⟨fresh consts, w.clock, []⟩ hw.clean (fun _ => rfl) rfl
    (fun q hq => hw.consts q hq)
  cases h2 : sampleFromPrior S.g (S.prior w.seed) S.roots S.tries ⟨fresh consts, w.clock, []⟩ with
  | none => exact absurd h2 (hd _ _)
  | some t =>
    cases h1 : sampleFromPrior S.g (S.prior w.seed) S.roots S.tries ⟨w.st, w.clock, []⟩ with
    | none => rw [h1, h2] at key; cases key
    | some s =>
      rw [h1, h2] at key
      cases key with
      | some k =>
        obtain ⟨k1, -, k3⟩ := k
        have hp : priorDraw S w = some (⟨w.seed, (getParameters S.g S.roots s.st).1, s.clock⟩, (getParameters S.g S.roots s.st).2) := by
          unfold priorDraw
          rw [h1]
        obtain ⟨g1, g2, g3⟩ := prior_holds S hS.apart consts w _ _ hw hp
        refine ⟨_, _, hp, ?_, g1, g2, g3⟩
        unfold aPrior Worker.pos
        simp only
        rw [h2]
        simp only [Prod.mk.injEq, true_and]
        refine ⟨k1.symm, ?_⟩
        have hc := Schedule.sampleFromPrior_clean S.g _ S.roots hS.apart S.tries _ s hw.clean h1
        rw [(getParameters_eq S.g S.roots s.st hc).1]
        refine List.map_congr_left fun q hq => (k3 q (.inl ?_)).symm
        exact ((mem_order _ _ _).1 hq).2

theorem simulate_same (S : Site α Y K) (hS : Sound S) (consts : Nat → Option α) (w : Worker α) (θ : List (Option α)) (hw : Good S consts w.st) (hθ : Holds S w.st θ) :
    aSim S consts θ w.pos = ((simulate S w).1.pos, (simulate S w).2) := by
  have : S.simulate w.seed w.st.value w.clock = S.simulate w.seed (valuesOf S consts θ) w.clock := by
    apply hS.reads
    intro r hr p hp
    unfold valuesOf
    by_cases hm : p ∈ order S.g S.roots
    · rw [if_pos hm, ← hθ, List.getElem?_map, List.getElem?_eq_getElem (List.idxOf_lt_length_of_mem hm), Option.map_some, Option.join_some, List.getElem_idxOf]
    · rw [if_neg hm]
      apply hw.consts
      rw [mem_order] at hm
      cases hk : S.g.kind p with
      | hyper => rfl
      | op => exact absurd hk (hS.direct r hr p hp)
      | cont => exact absurd ⟨by rw [hk]; rfl, r, hr, .input hp⟩ hm
      | disc => exact absurd ⟨by rw [hk]; rfl, r, hr, .input hp⟩ hm
  unfold aSim simulate Worker.pos
  simp only [this]

/-! ### PMCABC -/

/-- The environment of `Verif.Pmc` in which there are parameter vectors and no stored values. -/
noncomputable def pmcEnv (S : Site α Y (Pmc.Pop (List (Option α)) × Nat)) (consts : Nat → Option α) (kernel : Pmc.Pop (List (Option α)) → List (Option α) → List (Option α) → ℝ) :
    Pmc.Env (Nat × Nat) (List (Option α)) Y where
  distMax := S.distMax
  dist := S.dist
  pdf := aPdf S consts
  kernel := kernel
  held _ := []
  prior := aPrior S consts
  choose l p := ((p.1, (S.choice p.1 l p.2).1), (S.choice p.1 l p.2).2)
  perturb p i := aPerturb S consts (p, i)
  sim := aSim S consts

/-- C139 for the task of `PMCABC`. -/
theorem resample_same (S : Site α Y (Pmc.Pop (List (Option α)) × Nat)) (hS : Plain S) (consts : Nat → Option α) (hd : Draws S consts)
    (kernel : Pmc.Pop (List (Option α)) → List (Option α) → List (Option α) → ℝ) (eps : ℝ) (pop : Option (Pmc.Pop (List (Option α)))) (fuel seed : Nat) (st : St α) (hst : Good S consts st)
    (hmax : Pmc.above S.distMax eps = true) :
    (resampleTask S eps pop fuel seed st).2 = Pmc.resampleTask (pmcEnv S consts kernel) eps pop fuel (seed, 0) ∧ Good S consts (resampleTask S eps pop fuel seed st).1 := by
  have hloop : ∀ (n : Nat) (w : Worker α) (θ θ' : List (Option α)) (d : Option ℝ) (c : Nat), Good S consts w.st → (Pmc.above d eps = false → θ = θ') →
      (resampleLoop S eps pop n w θ d c = none ∧ Pmc.resampleLoop (pmcEnv S consts kernel) eps pop n w.pos θ' d c = none) ∨
      ∃ w' r, resampleLoop S eps pop n w θ d c = some (w', r) ∧ Pmc.resampleLoop (pmcEnv S consts kernel) eps pop n w.pos θ' d c = some r ∧ Good S consts w'.st := by
    intro n
    induction n with
    | zero => intro w θ θ' d c _ _; exact .inl ⟨rfl, rfl⟩
    | succ n ih =>
      intro w θ θ' d c hw hθ
      rw [resampleLoop.eq_def, Pmc.resampleLoop.eq_def]
      simp only
      by_cases hab : Pmc.above d eps = true
      · rw [if_pos hab, if_pos hab]
        cases pop with
        | none =>
          simp only
          obtain ⟨v, θ1, p1, p2, p3, p4, p5⟩ := prior_same S hS consts hd w hw
          have e1 : (pmcEnv S consts kernel).prior w.pos = (v.pos, θ1) := p2
          have e2 : (pmcEnv S consts kernel).sim θ1 v.pos = ((simulate S v).1.pos, (simulate S v).2) := simulate_same S hS.toSound consts v θ1 p3 p5
          rw [p1, e1]
          simp only
          rw [e2]
          simp only
          exact ih (simulate S v).1 θ1 θ1 (some (S.dist (simulate S v).2)) (c + 1) p3 fun _ => rfl
        | some p =>
          simp only
          have e0 : (pmcEnv S consts kernel).choose p.weights w.pos = (Worker.pos (⟨w.seed, w.st, (S.choice w.seed p.weights w.clock).1⟩ : Worker α), (S.choice w.seed p.weights w.clock).2) := rfl
          rw [e0]
          simp only
          rw [Schedule.pmc_propose_eq]
          rcases propose_same S hS consts (p, (S.choice w.seed p.weights w.clock).2) n ⟨w.seed, w.st, (S.choice w.seed p.weights w.clock).1⟩ hw with
            ⟨a1, a2⟩ | ⟨v, ps, a1, a2, a3, a4, a5, -, -⟩
          · rw [a1]
            have a2' : Smc.propose (pmcEnv S consts kernel).pdf ((pmcEnv S consts kernel).perturb p (S.choice w.seed p.weights w.clock).2) n
              (Worker.pos (⟨w.seed, w.st, (S.choice w.seed p.weights w.clock).1⟩ : Worker α)) = none := a2
            rw [a2']
            exact .inl ⟨rfl, rfl⟩
          · rw [a1]
            have a2' : Smc.propose (pmcEnv S consts kernel).pdf ((pmcEnv S consts kernel).perturb p (S.choice w.seed p.weights w.clock).2) n
              (Worker.pos (⟨w.seed, w.st, (S.choice w.seed p.weights w.clock).1⟩ : Worker α)) = some (v.pos, ps.map some) := a2
            rw [a2']
            simp only
            have e2 : (pmcEnv S consts kernel).sim (ps.map some) v.pos = ((simulate S v).1.pos, (simulate S v).2) := simulate_same S hS.toSound consts v _ a3 a5
            rw [e2]
            simp only
            exact ih (simulate S v).1 _ _ (some (S.dist (simulate S v).2)) (c + 1) a3 fun _ => rfl
      · rw [if_neg hab, if_neg hab]
        rw [hθ (by simpa using hab)]
        exact .inr ⟨w, _, rfl, rfl, hw⟩
  obtain ⟨g1, g2, g3⟩ := getParameters_eq S.g S.roots st hst.clean
  have hg : Good S consts (getParameters S.g S.roots st).1 := ⟨g2, fun q hq => by rw [g3]; exact hst.consts q hq⟩
  have key := hloop fuel ⟨seed, (getParameters S.g S.roots st).1, 0⟩ (getParameters S.g S.roots st).2 [] S.distMax 0 hg (by rw [hmax]; simp)
  unfold resampleTask Pmc.resampleTask
  simp only
  have e : Worker.pos (⟨seed, (getParameters S.g S.roots st).1, 0⟩ : Worker α) = (seed, 0) := rfl
  rw [e] at key
  have e' : Pmc.resampleLoop (pmcEnv S consts kernel) eps pop fuel (seed, 0) ((pmcEnv S consts kernel).held (seed, 0)) (pmcEnv S consts kernel).distMax 0 =
    Pmc.resampleLoop (pmcEnv S consts kernel) eps pop fuel (seed, 0) [] S.distMax 0 := rfl
  rw [e']
  rcases key with ⟨h1, h2⟩ | ⟨w', ⟨θ, d, c⟩, h1, h2, h3⟩
  · rw [h1, h2]
    exact ⟨rfl, hst⟩
  · rw [h1, h2]
    cases d with
    | none => exact ⟨rfl, hst⟩
    | some d => exact ⟨rfl, h3⟩

/-- C139. The tasks of a step of `PMCABC`, run on the graph by any number of processes in any order, whatever their graphs held at the start, return what the sampler over parameter vectors (`Verif.Pmc`, about which the other
theorems speak) returns for the seeds of the tasks. -/
theorem C139_pmcabc (S : Site α Y (Pmc.Pop (List (Option α)) × Nat)) (hS : Plain S) (consts : Nat → Option α) (hd : Draws S consts)
    (kernel : Pmc.Pop (List (Option α)) → List (Option α) → List (Option α) → ℝ) (eps : ℝ) (pop : Option (Pmc.Pop (List (Option α)))) (fuel : Nat) (hmax : Pmc.above S.distMax eps = true)
    (seeds : Nat → Nat) (n : Nat) (schedule : List (Nat × Nat)) (hc : Schedule.Complete n schedule) (st : St α) (hst : Good S consts st) :
    Schedule.mapMpi (resampleTask S eps pop fuel) seeds n schedule st = (List.range n).map (fun i => some (Pmc.resampleTask (pmcEnv S consts kernel) eps pop fuel (seeds i, 0))) ∧
    (Schedule.mapSequential (resampleTask S eps pop fuel) seeds n st).2 = (List.range n).map (fun i => Pmc.resampleTask (pmcEnv S consts kernel) eps pop fuel (seeds i, 0)) := by
  have key := fun seed s (hs : Good S consts s) => resample_same S hS consts hd kernel eps pop fuel seed s hs hmax
  obtain ⟨a1, a2, -⟩ := Schedule.maps_agree (resampleTask S eps pop fuel) seeds (fun a b => a = b ∨ (Good S consts a ∧ Good S consts b)) (fun s => .inl rfl)
    (by
      rintro t s s' (rfl | ⟨h, h'⟩)
      · rfl
      · rw [(key t s h).1, (key t s' h').1]) st
    (by
      rintro t s (rfl | ⟨h, h'⟩)
      · exact .inr ⟨(key t _ hst).2, hst⟩
      · exact .inr ⟨(key t s h).2, hst⟩) n schedule hc
  rw [a1, a2]
  exact ⟨List.map_congr_left fun i _ => by rw [(key _ st hst).1], List.map_congr_left fun i _ => (key _ st hst).1⟩

end Verif.Site
