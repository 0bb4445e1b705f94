import Verif.Site.Model
import Verif.Schedule.Props
import Verif.Kernel.Props
/-
C138: the data behind an accepted particle were simulated with its parameters.
-/
namespace Verif.Site

open Graph

variable {α Y K : Type}

/-- Specification: the values of the nodes for a particle: each parameter has its entry (parameters in the order of `get_parameters`), constants have their values. -/
def valuesOf (S : Site α Y K) (consts : Nat → Option α) (θ : List (Option α)) (v : Nat) : Option α :=
  if v ∈ order S.g S.roots then (θ[(order S.g S.roots).idxOf v]?).join else consts v

/-- Specification of the parts around the graph: no observed model is an input of another one, the simulators read their inputs only and none is an arithmetic expression, the kernel returns one value for each
parameter, and a value that a model refuses has density zero at the same stored values. -/
structure Sound (S : Site α Y K) : Prop where
  apart : RootsApart S.g S.roots
  direct : ∀ r ∈ S.roots, ∀ p ∈ S.g.parents r, S.g.kind p ≠ .op
  reads : ∀ seed vals vals' c, (∀ r ∈ S.roots, ∀ p ∈ S.g.parents r, vals p = vals' p) → S.simulate seed vals c = S.simulate seed vals' c
  kernel : ∀ k seed c pairs, (S.update k seed c).2 = some pairs → (pairs.map Prod.fst).Perm (order S.g S.roots) ∧ ∀ e ∈ pairs, e.2.length = 1
  refused : ∀ vals v x, S.chk vals v x = .reject → S.dens vals v (some x) = 0

/-- No marks, and the constants in place. -/
structure Good (S : Site α Y K) (consts : Nat → Option α) (s : St α) : Prop where
  clean : Clean s
  consts : ∀ q, S.g.kind q = .hyper → s.value q = consts q

theorem prior_consts (g : G) (sm : Sim α) (roots : List Nat) (hap : RootsApart g roots) (n : Nat) (s s' : Smp α) (hs : Clean s.st) (h : sampleFromPrior g sm roots n s = some s') :
    ∀ q, g.kind q = .hyper → s'.st.value q = s.st.value q := by
  have hnode : ∀ (s s' : Smp α), Replays g sm s s' → ∀ q, g.kind q = .hyper → s'.st.value q = s.st.value q := by
    rintro s s' ⟨l, -, h⟩ q hq
    have hdraw : ∀ (l : List Nat) (vals : Nat → Option α) (c : Nat), (drawAll g sm l vals c).1 q = vals q := by
      intro l
      induction l with
      | nil => intros; rfl
      | cons v l ih =>
        intro vals c
        rw [drawAll]
        split
        · exact ih _ _
        · rename_i hv
          have hne : q ≠ v := fun e => hv (e ▸ hq)
          split
          · exact ih _ _
          · rw [ih]
            split
            · exact Function.update_of_ne hne _ _
            · rfl
    have := congrArg Prod.fst h
    simp only at this
    rw [this]
    exact hdraw _ _ _
  induction n generalizing s with
  | zero => simp [sampleFromPrior] at h
  | succ n ih =>
    intro q hq
    have hsp := sampleAttempt_spec g sm roots hap { s with log := [] } hs rfl
    have hrp := sampleAttempt_replays g sm roots { s with log := [] }
    rw [sampleFromPrior] at h
    cases hr : sampleAttempt g sm roots { s with log := [] } with
    | ok s1 =>
      rw [hr] at h hrp
      simp only [Option.some.injEq] at h
      subst h
      simp only [resetFlags_eq]
      exact hnode _ _ hrp q hq
    | error s1 =>
      rw [hr] at h hrp hsp
      rw [ih _ hsp.2.2 h q hq]
      simp only [resetFlags_eq]
      exact hnode _ _ hrp q hq

theorem hyper_notin (g : G) (roots : List Nat) (q : Nat) (hq : g.kind q = .hyper) : q ∉ order g roots := by
  rw [mem_order]
  rintro ⟨h, -⟩
  rw [hq] at h
  exact absurd h (by simp [Kind.isFree])

/-- `set_parameters`: what it stores. -/
theorem set_cases (S : Site α Y K) (hap : RootsApart S.g S.roots) (consts : Nat → Option α) (ps : List α) (s : St α) (hs : Good S consts s) :
    ((setParameters S.g S.chk S.roots ps s).2 = .error .raised) ∨
    (Good S consts (setParameters S.g S.chk S.roots ps s).1 ∧
      ((∃ k, (setParameters S.g S.chk S.roots ps s).2 = .ok k ∧ (order S.g S.roots).length ≤ ps.length ∧
          (order S.g S.roots).map (setParameters S.g S.chk S.roots ps s).1.value = (ps.take (order S.g S.roots).length).map some) ∨
        ∃ i, (setParameters S.g S.chk S.roots ps s).2 = .error (.rejected i) ∧ ∃ (hi : i < (order S.g S.roots).length) (x : α), ps[i]? = some x ∧
          S.chk (setParameters S.g S.chk S.roots ps s).1.value (order S.g S.roots)[i] x = .reject)) := by
  have key := setParameters_eq S.g S.chk ps S.roots hap s hs.clean
  have hnd := order_nodup S.g S.roots
  cases ha : assignInOrder S.chk ps (order S.g S.roots) 0 s.value with
  | ok r =>
    obtain ⟨val, k⟩ := r
    rw [ha] at key
    obtain ⟨k1, k2, k3⟩ := key
    obtain ⟨a1, a2, a3, a4⟩ := assign_ok S.chk ps _ 0 s.value val k hnd ha
    refine .inr ⟨⟨k3, fun q hq => ?_⟩, .inl ⟨k, k1, ?_, ?_⟩⟩
    · rw [k2, a4 q (hyper_notin _ _ q hq), hs.consts q hq]
    · have := a2 (Nat.zero_le _); omega
    · rw [k2, a3, List.drop_zero]
  | error e =>
    rcases e with ⟨i | _, val⟩
    · rw [ha] at key
      obtain ⟨k1, k2, k3⟩ := key
      obtain ⟨k, e, hk, a2, a3, x, hx, hc⟩ := assign_rejected S.chk ps _ 0 s.value val i hnd ha
      simp only [Nat.zero_add] at e
      subst e
      refine .inr ⟨⟨k3, fun q hq => ?_⟩, .inr ⟨i, k1, hk, x, hx, by rw [k2]; exact hc⟩⟩
      rw [k2, a3 q fun hm => hyper_notin _ _ q hq (List.mem_of_mem_take hm), hs.consts q hq]
    · rw [ha] at key
      exact .inl key.1

/-- A factor zero of the prior density. -/
theorem pdfVal_zero (g : G) (d : Nat → ℝ) (roots : List Nat) (v : Nat) (hv : v ∈ order g roots) (h0 : d v = 0) : pdfVal g d (fun _ => false) (above g roots) = 0 := by
  rw [mem_order] at hv
  obtain ⟨hf, hr⟩ := hv
  have hab := (mem_above g roots v).2 hr
  rw [pdfVal, prodOver, prodOver, mul_eq_zero, List.prod_eq_zero_iff, List.prod_eq_zero_iff]
  cases hk : g.kind v with
  | hyper => rw [hk] at hf; exact absurd hf (by simp [Kind.isFree])
  | op => rw [hk] at hf; exact absurd hf (by simp [Kind.isFree])
  | cont => exact .inl (List.mem_map.2 ⟨v, mem_fresh.2 ⟨List.mem_filter.2 ⟨hab, by simp [isCont, hk]⟩, rfl⟩, h0⟩)
  | disc => exact .inr (List.mem_map.2 ⟨v, List.mem_filter.2 ⟨hab, by simp [isDisc, hk]⟩, h0⟩)

/-- `pdf_of_prior`: if the density is not zero, the nodes hold the vector. -/
theorem pdf_cases (S : Site α Y K) (hS : Sound S) (consts : Nat → Option α) (ps : List α) (s : St α) (hs : Good S consts s) (d : ℝ)
    (hd : (pdfOfPrior S.g S.chk S.dens S.roots ps s).2 = some d) :
    Good S consts (pdfOfPrior S.g S.chk S.dens S.roots ps s).1 ∧
    (d ≠ 0 → (order S.g S.roots).length ≤ ps.length ∧
      (order S.g S.roots).map (pdfOfPrior S.g S.chk S.dens S.roots ps s).1.value = (ps.take (order S.g S.roots).length).map some) := by
  rcases pdfOfPrior_eq S.g S.chk S.dens S.roots hS.apart ps s hs.clean with ⟨-, p2⟩ | ⟨p1, p2, p3, p4⟩
  · rw [hd] at p2; cases p2
  · rcases set_cases S hS.apart consts ps s hs with h | ⟨hg, h⟩
    · exact absurd h p1
    · refine ⟨⟨p4, fun q hq => by rw [p3]; exact hg.consts q hq⟩, fun hne => ?_⟩
      rcases h with ⟨k, h1, h2, h3⟩ | ⟨i, h1, hi, x, hx, hc⟩
      · exact ⟨h2, by rw [p3]; exact h3⟩
      · exfalso
        rw [hd, Option.some.injEq] at p2
        apply hne
        rw [p2]
        apply pdfVal_zero S.g _ S.roots (order S.g S.roots)[i] (List.getElem_mem hi)
        rw [if_pos (List.getElem_mem hi), (order_nodup S.g S.roots).idxOf_getElem i hi, hx]
        exact hS.refused _ _ _ hc

/-- The vector that `get_correct_ordering` makes of the answer of a kernel has one entry for each parameter. -/
theorem ordering_length (S : Site α Y K) (hS : Sound S) (k : K) (seed c : Nat) (pairs : List (Nat × List α)) (h : (S.update k seed c).2 = some pairs) (s : St α) (hs : Clean s) :
    (correctOrdering S.g S.roots pairs s).2.length = (order S.g S.roots).length := by
  obtain ⟨h1, h2⟩ := hS.kernel k seed c pairs h
  have hnd : (pairs.map Prod.fst).Nodup := h1.nodup_iff.2 (order_nodup _ _)
  obtain ⟨a1, a2, -⟩ := C09_ordering S.g S.roots hS.apart s hs pairs hnd fun e he => h1.mem_iff.1 (List.mem_map_of_mem he)
  rw [a1, List.length_flatMap]
  have : (order S.g S.roots).map (fun v => ((pairs.lookup v).getD []).length) = (order S.g S.roots).map fun _ => 1 := by
    apply List.map_congr_left
    intro v hv
    obtain ⟨e, he, rfl⟩ := List.mem_map.1 (h1.mem_iff.2 hv)
    rw [a2 e.1 e.2 he, h2 e he]
  rw [this]
  simp

/-- `perturb`: whatever happens, no marks are left and the constants stay; a vector that is returned has one entry for each parameter. -/
theorem perturbLoop_good (S : Site α Y K) (hS : Sound S) (consts : Nat → Option α) (k : K) (seed c : Nat) (fuel : Nat) : ∀ (e : Nat) (last : Option (List α)) (s : St α), Good S consts s →
    (∀ ps, last = some ps → ps.length = (order S.g S.roots).length) → ∀ r, (Kernel.perturbLoop S.g S.chk S.roots (proposals S k seed c) fuel e last s).2 = some r →
    Good S consts (Kernel.perturbLoop S.g S.chk S.roots (proposals S k seed c) fuel e last s).1 ∧ ∀ ps, r.2 = some ps → ps.length = (order S.g S.roots).length := by
  induction fuel with
  | zero =>
    intro e last s hs hl r hr
    simp only [Kernel.perturbLoop, Option.some.injEq] at hr ⊢
    subst hr
    exact ⟨hs, hl⟩
  | succ fuel ih =>
    intro e last s hs hl r hr
    rw [Kernel.perturbLoop] at hr ⊢
    cases hp : proposals S k seed c e with
    | none => rw [hp] at hr; cases hr
    | some pairs =>
      rw [hp] at hr
      simp only at hr ⊢
      have hcl := Kernel.clean_reset S.g S.roots s hs.clean
      have hlen := ordering_length S hS k seed (after S k seed c e) pairs hp _ hcl
      obtain ⟨-, o2, o3⟩ := correctOrdering_eq S.g pairs S.roots _ hcl
      have hg : Good S consts (correctOrdering S.g S.roots pairs (resetFlags S.g S.roots s)).1 := by
        refine ⟨o2, fun q hq => ?_⟩
        rw [o3, resetFlags_eq]
        exact hs.consts q hq
      generalize hco : correctOrdering S.g S.roots pairs (resetFlags S.g S.roots s) = co at hr hlen hg ⊢
      obtain ⟨s1, ps⟩ := co
      simp only at hr hlen hg ⊢
      rcases set_cases S hS.apart consts ps s1 hg with h | ⟨hgood, ⟨j, h, -, -⟩ | ⟨i, h, -⟩⟩
      · generalize setParameters S.g S.chk S.roots ps s1 = sp at hr h ⊢
        obtain ⟨s2, o⟩ := sp
        simp only at h
        subst h
        cases hr
      · generalize setParameters S.g S.chk S.roots ps s1 = sp at hr h hgood ⊢
        obtain ⟨s2, o⟩ := sp
        simp only at h
        subst h
        simp only [Option.some.injEq] at hr ⊢
        subst hr
        exact ⟨hgood, fun ps' h => by simp only [Option.some.injEq] at h; rw [← h]; exact hlen⟩
      · generalize setParameters S.g S.chk S.roots ps s1 = sp at hr h hgood ⊢
        obtain ⟨s2, o⟩ := sp
        simp only at h
        subst h
        simp only at hr ⊢
        exact ih _ _ _ hgood (fun ps' h => by simp only [Option.some.injEq] at h; rw [← h]; exact hlen) r hr

theorem perturb_good (S : Site α Y K) (hS : Sound S) (consts : Nat → Option α) (k : K) (w w' : Worker α) (o : Option (List α)) (hw : Good S consts w.st)
    (h : perturb S k w = some (w', o)) : Good S consts w'.st ∧ w'.seed = w.seed ∧ ∀ ps, o = some ps → ps.length = (order S.g S.roots).length := by
  have key := perturbLoop_good S hS consts k w.seed w.clock 100 0 none w.st hw (by simp)
  unfold perturb Kernel.perturb at h
  generalize Kernel.perturbLoop S.g S.chk S.roots (proposals S k w.seed w.clock) 100 0 none w.st = pl at h key
  obtain ⟨s, r⟩ := pl
  cases r with
  | none => simp at h
  | some r =>
    obtain ⟨e, last⟩ := r
    obtain ⟨k1, k2⟩ := key _ rfl
    simp only at h k1 k2
    by_cases he : e = 10
    · simp only [he, if_true, Option.some.injEq, Prod.mk.injEq] at h
      obtain ⟨rfl, rfl⟩ := h
      exact ⟨k1, rfl, by simp⟩
    · simp only [he, if_false] at h
      cases last with
      | none => simp at h
      | some ps =>
        simp only [Option.some.injEq, Prod.mk.injEq] at h
        obtain ⟨rfl, rfl⟩ := h
        exact ⟨k1, rfl, fun ps' h => k2 ps' h⟩

/-- The loop of proposals: at its end the nodes hold the vector that it returns. -/
theorem propose_holds (S : Site α Y K) (hS : Sound S) (consts : Nat → Option α) (k : K) (fuel : Nat) : ∀ (w w' : Worker α) (ps : List α), Good S consts w.st →
    propose S k fuel w = some (w', ps) → Good S consts w'.st ∧ w'.seed = w.seed ∧ (order S.g S.roots).map w'.st.value = ps.map some := by
  classical
  induction fuel with
  | zero => intro w w' ps _ h; simp [propose] at h
  | succ fuel ih =>
    intro w w' ps hw h
    rw [propose] at h
    cases hp : perturb S k w with
    | none => rw [hp] at h; cases h
    | some r =>
      obtain ⟨v, o⟩ := r
      obtain ⟨g1, g2, g3⟩ := perturb_good S hS consts k w v o hw hp
      rw [hp] at h
      cases o with
      | none =>
        simp only at h
        obtain ⟨a1, a2, a3⟩ := ih v w' ps g1 h
        exact ⟨a1, a2.trans g2, a3⟩
      | some qs =>
        simp only at h
        have hpc := pdf_cases S hS consts qs v.st g1
        generalize pdfOfPrior S.g S.chk S.dens S.roots qs v.st = pr at h hpc
        obtain ⟨s, od⟩ := pr
        cases od with
        | none => cases h
        | some d =>
          obtain ⟨b1, b2⟩ := hpc d rfl
          simp only at h b1 b2
          split at h
          · rename_i hne
            simp only [Option.some.injEq, Prod.mk.injEq] at h
            obtain ⟨rfl, rfl⟩ := h
            refine ⟨b1, g2, ?_⟩
            rw [(b2 hne).2, List.take_of_length_le (g3 qs rfl).le]
          · obtain ⟨a1, a2, a3⟩ := ih _ w' ps b1 h
            exact ⟨a1, a2.trans g2, a3⟩

theorem prior_holds (S : Site α Y K) (hap : RootsApart S.g S.roots) (consts : Nat → Option α) (w w' : Worker α) (θ : List (Option α)) (hw : Good S consts w.st)
    (h : priorDraw S w = some (w', θ)) : Good S consts w'.st ∧ w'.seed = w.seed ∧ (order S.g S.roots).map w'.st.value = θ := by
  unfold priorDraw at h
  split at h
  · cases h
  · rename_i s hs
    simp only [Option.some.injEq, Prod.mk.injEq] at h
    obtain ⟨rfl, rfl⟩ := h
    have hc := Schedule.sampleFromPrior_clean S.g _ S.roots hap S.tries _ s hw.clean hs
    obtain ⟨g1, g2, g3⟩ := getParameters_eq S.g S.roots s.st hc
    refine ⟨⟨g2, fun q hq => ?_⟩, rfl, ?_⟩
    · rw [g3, prior_consts S.g _ S.roots hap S.tries _ s hw.clean hs q hq]
      exact hw.consts q hq
    · rw [g1, g3]

/-- A simulation while the nodes hold a vector. -/
theorem simulate_at (S : Site α Y K) (hS : Sound S) (consts : Nat → Option α) (w : Worker α) (θ : List (Option α)) (hw : Good S consts w.st) (hθ : (order S.g S.roots).map w.st.value = θ) :
    (simulate S w).2 = (S.simulate w.seed (valuesOf S consts θ) w.clock).2 := by
  unfold simulate
  simp only
  rw [hS.reads w.seed w.st.value (valuesOf S consts θ) w.clock]
  intro r hr p hp
  unfold valuesOf
  by_cases hm : p ∈ order S.g S.roots
  · rw [if_pos hm, ← hθ, List.getElem?_map, List.getElem?_eq_getElem (List.idxOf_lt_length_of_mem hm), Option.map_some, Option.join_some, List.getElem_idxOf]
  · rw [if_neg hm]
    apply hw.consts
    rw [mem_order] at hm
    cases hk : S.g.kind p with
    | hyper => rfl
    | op => exact absurd hk (hS.direct r hr p hp)
    | cont => exact absurd ⟨by rw [hk]; rfl, r, hr, .input hp⟩ hm
    | disc => exact absurd ⟨by rw [hk]; rfl, r, hr, .input hp⟩ hm

/-- C138 for `PMCABC`: a particle that a task returns after at least one simulation comes with the distance of data that were simulated with exactly its values and with the constants of the graph, whatever values the
graph held before, and however many perturbations were refused, by the support checks or by the prior density, in between. The distance is at most the threshold. Missing: simulators with an arithmetic expression among
their inputs (`C138_arithmetic_violated`). The other samplers are in `Verif.Site.Tasks`. -/
theorem C138_partial (S : Site α Y (Pmc.Pop (List (Option α)) × Nat)) (hS : Sound S) (consts : Nat → Option α) (eps : ℝ) (pop : Option (Pmc.Pop (List (Option α)))) (fuel seed : Nat) (st : St α)
    (hst : Good S consts st) (θ : List (Option α)) (d : ℝ) (c : Nat) (h : (resampleTask S eps pop fuel seed st).2 = some (θ, d, c)) (hc : 0 < c) :
    (∃ clock, d = S.dist (S.simulate seed (valuesOf S consts θ) clock).2) ∧ θ.length = (order S.g S.roots).length ∧ d ≤ eps ∧ Good S consts (resampleTask S eps pop fuel seed st).1 := by
  have hloop : ∀ (n : Nat) (w w' : Worker α) (θ θ' : List (Option α)) (d d' : Option ℝ) (c c' : Nat), Good S consts w.st → w.seed = seed →
      (0 < c → (∃ clock, d = some (S.dist (S.simulate seed (valuesOf S consts θ) clock).2)) ∧ θ.length = (order S.g S.roots).length) →
      resampleLoop S eps pop n w θ d c = some (w', θ', d', c') → Good S consts w'.st ∧ Pmc.above d' eps = false ∧
      (0 < c' → (∃ clock, d' = some (S.dist (S.simulate seed (valuesOf S consts θ') clock).2)) ∧ θ'.length = (order S.g S.roots).length) := by
    intro n
    induction n with
    | zero => intro w w' θ θ' d d' c c' _ _ _ h; simp [resampleLoop] at h
    | succ n ih =>
      intro w w' θ θ' d d' c c' hw hseed hinv h
      rw [resampleLoop.eq_def] at h
      simp only at h
      split at h
      · cases pop with
        | none =>
          simp only at h
          cases hp : priorDraw S w with
          | none => rw [hp] at h; cases h
          | some r =>
            obtain ⟨v, θ1⟩ := r
            obtain ⟨g1, g2, g3⟩ := prior_holds S hS.apart consts w v θ1 hw hp
            rw [hp] at h
            simp only at h
            refine ih (simulate S v).1 w' θ1 θ' _ d' (c + 1) c' g1 (g2.trans hseed) (fun _ => ⟨⟨v.clock, ?_⟩, by rw [← g3]; simp⟩) h
            rw [simulate_at S hS consts v θ1 g1 g3, g2, hseed]
        | some p =>
          simp only at h
          cases hp : propose S (p, (S.choice w.seed p.weights w.clock).2) n ⟨w.seed, w.st, (S.choice w.seed p.weights w.clock).1⟩ with
          | none => rw [hp] at h; cases h
          | some r =>
            obtain ⟨v, ps⟩ := r
            obtain ⟨g1, g2, g3⟩ := propose_holds S hS consts _ n _ v ps (by exact hw) hp
            simp only at g2
            rw [hp] at h
            simp only at h
            refine ih (simulate S v).1 w' (ps.map some) θ' _ d' (c + 1) c' g1 (g2.trans hseed) (fun _ => ⟨⟨v.clock, ?_⟩, by rw [← g3]; simp⟩) h
            rw [simulate_at S hS consts v _ g1 g3, g2, hseed]
      · rename_i hab
        simp only [Option.some.injEq, Prod.mk.injEq] at h
        obtain ⟨rfl, rfl, rfl, rfl⟩ := h
        exact ⟨hw, by simpa using hab, hinv⟩
  obtain ⟨g1, g2, g3⟩ := getParameters_eq S.g S.roots st hst.clean
  have key := hloop fuel ⟨seed, (getParameters S.g S.roots st).1, 0⟩
  unfold resampleTask at h ⊢
  simp only at h ⊢
  generalize hr : resampleLoop S eps pop fuel ⟨seed, (getParameters S.g S.roots st).1, 0⟩ (getParameters S.g S.roots st).2 S.distMax 0 = res at h ⊢
  match res, h with
  | none, h => cases h
  | some (w, θ1, none, c1), h => cases h
  | some (w, θ1, some d1, c1), h =>
    simp only [Option.some.injEq, Prod.mk.injEq] at h
    obtain ⟨rfl, rfl, rfl⟩ := h
    obtain ⟨a1, a2, a3⟩ := key w _ θ1 _ (some d1) 0 c1 ⟨g2, fun q hq => by simp only; rw [g3]; exact hst.consts q hq⟩ rfl (by simp) hr
    obtain ⟨⟨clock, b1⟩, b2⟩ := a3 hc
    refine ⟨⟨clock, Option.some.inj b1⟩, b2, ?_, a1⟩
    simpa [Pmc.above] using a2

end Verif.Site
