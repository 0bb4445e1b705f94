import Verif.Site.Tasks
import Verif.Graph.Examples
import Verif.Models.Simulate
/-
Sites that meet the hypotheses of C138 and C139, and programs for which C138 fails.
-/
namespace Verif.Site

open Graph

variable {α Y K : Type}

/-! ### A site -/

theorem lineG_order : order lineG [2] = [1] := by
  have k0 : lineG.kind 0 = .hyper := rfl
  have k1 : lineG.kind 1 = .cont := rfl
  have p2 : lineG.parents 2 = [1] := rfl
  have p1 : lineG.parents 1 = [0] := rfl
  have p0 : lineG.parents 0 = [] := rfl
  simp [order, above, unfold_eq, p2, p1, p0, k0, k1, List.eraseDups_cons, Kind.isFree]

theorem lineG_apart : RootsApart lineG [2] := by
  intro r hr r' hr' h
  simp only [List.mem_singleton] at hr hr'
  subst hr hr'
  exact absurd h.lt (lt_irrefl _)

/-- One parameter on the interval from 0 to 100, uniform; the kernel steps through the numbers, and leaves the interval at times; the simulator returns the parameter. -/
noncomputable def plain : Site Int Int Nat where
  g := lineG
  roots := [2]
  chk _ _ x := if 0 ≤ x ∧ x ≤ 100 then .accept else .reject
  dens _ _ o := match o with | some x => if 0 ≤ x ∧ x ≤ 100 then 1 else 0 | none => 1
  prior seed := ⟨fun _ v t => if v = 1 then some (((seed + t) % 101 : ℕ) : Int) else none, fun _ _ x => decide (0 ≤ x ∧ x ≤ 100)⟩
  tries := 1
  simulate _ vals c := (c + 1, (vals 1).getD 0)
  update k seed c := (c + 1, some [(1, [((k + seed + c : ℕ) : Int)])])
  choice _ _ c := (c, 0)
  dist y := |(y : ℝ) - 50|
  distMax := none

theorem plain_plain : Plain plain where
  apart := lineG_apart
  direct r hr p hp := by
    simp only [plain, List.mem_singleton] at hr
    subst hr
    have : p = 1 := by simpa [plain, lineG] using hp
    subst this
    simp [plain, lineG]
  reads seed vals vals' c h := by
    have := h 2 (by simp [plain]) 1 (by simp [plain, lineG])
    simp only [plain, this]
  kernel k seed c pairs h := by
    simp only [plain, Option.some.injEq] at h
    subst h
    have : order plain.g plain.roots = [1] := lineG_order
    rw [this]
    simp
  refused vals v x h := by
    by_cases hx : 0 ≤ x ∧ x ≤ 100
    · simp [plain, hx] at h
    · simp only [plain, if_neg hx]
  checks _ _ _ _ := rfl
  noRaise vals v x := by
    simp only [plain]
    split <;> simp
  densReads _ _ _ _ _ := rfl
  noOps r hr q hq := by
    intro h
    simp only [plain, lineG] at h
    split at h <;> cases h
  proper seed := by
    refine ⟨fun _ _ _ _ _ => rfl, fun vals v t x h => ?_⟩
    simp only [plain] at h ⊢
    split at h
    · simp only [Option.some.injEq] at h
      subst h
      have := Nat.mod_lt (seed + t) (show 0 < 101 by decide)
      simp only [decide_eq_true_eq]
      omega
    · cases h
  noFail k seed c := by simp [plain]

/-- The draw of the prior, computed. -/
theorem plain_prior (consts : Nat → Option Int) (seed c : Nat) :
    ∃ s, sampleFromPrior plain.g (plain.prior seed) plain.roots plain.tries ⟨fresh consts, c, []⟩ = some s ∧ s.st.value 1 = some (((seed + c) % 101 : ℕ) : Int) := by
  have k0 : plain.g.kind 0 = .hyper := rfl
  have k1 : plain.g.kind 1 = .cont := rfl
  have p2 : plain.g.parents 2 = [1] := rfl
  have p1 : plain.g.parents 1 = [0] := rfl
  have p0 : plain.g.parents 0 = [] := rfl
  have e : plain.tries = 0 + 1 := rfl
  have hr : plain.roots = [2] := rfl
  have hsim : ∀ vals t, (plain.prior seed).sim vals 1 t = some (((seed + t) % 101 : ℕ) : Int) := fun _ _ => rfl
  have hok : ∀ vals t, (plain.prior seed).okOut vals 1 (((seed + t) % 101 : ℕ) : Int) = true := by
    intro vals t
    simp only [plain, decide_eq_true_eq]
    omega
  rw [e, sampleFromPrior, hr]
  simp only [sampleAttempt, forMemE_eq_loopE, loopE, sampleRoot_unfold, sampleStep, sampleNode_unfold, p2, p1, p0, drawNode, k0, k1, mark, hsim, hok, fresh]
  simp [resetFlags_eq, Graph.store]

theorem plain_draws (consts : Nat → Option Int) : Draws plain consts := by
  intro seed c h
  obtain ⟨s, hs, -⟩ := plain_prior consts seed c
  rw [hs] at h
  cases h

/-- `set_parameters` with a number of the interval. -/
theorem plain_fits (consts : Nat → Option Int) (x : Int) (hx : 0 ≤ x ∧ x ≤ 100) : Fits plain consts [some x] := by
  have ho : order plain.g plain.roots = [1] := lineG_order
  refine ⟨[x], rfl, by rw [ho]; rfl, 1, ?_⟩
  have key := setParameters_eq plain.g plain.chk [x] plain.roots lineG_apart (fresh consts) (fun _ => rfl)
  have hc : ∀ vals v, plain.chk vals v x = .accept := fun _ _ => by simp only [plain, if_pos hx]
  rw [ho] at key
  simp only [assignInOrder, List.getElem?_cons_zero, hc] at key
  exact key.1

theorem plain_inside (consts : Nat → Option Int) : Inside plain consts := by
  rintro ⟨seed, c⟩
  obtain ⟨s, hs, hv⟩ := plain_prior consts seed c
  have ho : order plain.g plain.roots = [1] := lineG_order
  have : (aPrior plain consts (seed, c)).2 = [some (((seed + c) % 101 : ℕ) : Int)] := by
    unfold aPrior
    simp only
    rw [hs]
    simp only [ho, List.map_cons, List.map_nil, hv]
  rw [this]
  exact plain_fits consts _ (by omega)

/-- The hypotheses of C138 and C139 can be met together. -/
example (consts : Nat → Option Int) : Plain plain ∧ Draws plain consts ∧ Inside plain consts ∧ Good plain consts (fresh consts) ∧ (∀ eps, Pmc.above plain.distMax eps = true) ∧ Fits plain consts [some 7] :=
  ⟨plain_plain, plain_draws consts, plain_inside consts, fresh_good plain consts, fun _ => rfl, plain_fits consts 7 (by decide)⟩

/-! ### Computing on concrete graphs -/

theorem set_ok (S : Site α Y K) (hap : RootsApart S.g S.roots) (ps : List α) (s : St α) (hs : Clean s) (val : Nat → Option α) (k : Nat)
    (h : assignInOrder S.chk ps (order S.g S.roots) 0 s.value = .ok (val, k)) : ∃ s', setParameters S.g S.chk S.roots ps s = (s', .ok k) ∧ s'.value = val ∧ Clean s' := by
  have key := setParameters_eq S.g S.chk ps S.roots hap s hs
  rw [h] at key
  exact ⟨_, Prod.ext rfl key.1, key.2.1, key.2.2⟩

theorem set_rejected (S : Site α Y K) (hap : RootsApart S.g S.roots) (ps : List α) (s : St α) (hs : Clean s) (val : Nat → Option α) (k : Nat)
    (h : assignInOrder S.chk ps (order S.g S.roots) 0 s.value = .error (.rejected k, val)) :
    ∃ s', setParameters S.g S.chk S.roots ps s = (s', .error (.rejected k)) ∧ s'.value = val ∧ Clean s' := by
  have key := setParameters_eq S.g S.chk ps S.roots hap s hs
  rw [h] at key
  exact ⟨_, Prod.ext rfl key.1, key.2.1, key.2.2⟩

theorem pdf_ok (S : Site α Y K) (hap : RootsApart S.g S.roots) (ps : List α) (s : St α) (hs : Clean s) (val : Nat → Option α) (k : Nat)
    (h : assignInOrder S.chk ps (order S.g S.roots) 0 s.value = .ok (val, k)) : ∃ s', pdfOfPrior S.g S.chk S.dens S.roots ps s =
      (s', some (pdfVal S.g (fun v => S.dens val v (if v ∈ order S.g S.roots then ps[(order S.g S.roots).idxOf v]? else none)) (fun _ => false) (above S.g S.roots))) ∧ s'.value = val ∧ Clean s' := by
  obtain ⟨s1, h1, h2, -⟩ := set_ok S hap ps s hs val k h
  rcases pdfOfPrior_eq S.g S.chk S.dens S.roots hap ps s hs with ⟨q, -⟩ | ⟨-, q2, q3, q4⟩
  · rw [h1] at q; cases q
  · rw [h1] at q2 q3
    simp only [h2] at q2 q3
    exact ⟨_, Prod.ext rfl q2, q3, q4⟩

/-- A perturbation that is accepted at once. -/
theorem perturb_first (S : Site α Y K) (hap : RootsApart S.g S.roots) (k : K) (w : Worker α) (hw : Clean w.st) (pairs : List (Nat × List α)) (c : Nat) (hu : S.update k w.seed w.clock = (c, some pairs)) (ps : List α)
    (hps : ((S.roots.flatMap (unfold S.g)).eraseDups).flatMap (firstParams pairs) = ps) (val : Nat → Option α) (n : Nat)
    (h : assignInOrder S.chk ps (order S.g S.roots) 0 w.st.value = .ok (val, n)) :
    ∃ s, perturb S k w = some (⟨w.seed, s, c⟩, some ps) ∧ s.value = val ∧ Clean s := by
  have hcl := Kernel.clean_reset S.g S.roots w.st hw
  obtain ⟨o1, o2, o3⟩ := correctOrdering_eq S.g pairs S.roots _ hcl
  have hval : (correctOrdering S.g S.roots pairs (resetFlags S.g S.roots w.st)).1.value = w.st.value := by
    rw [o3, resetFlags_eq]
  obtain ⟨s, h1, h2, h3⟩ := set_ok S hap ps _ o2 val n (by rw [hval]; exact h)
  have hp : proposals S k w.seed w.clock 0 = some pairs := by
    unfold proposals after
    rw [hu]
  have ha : after S k w.seed w.clock 1 = c := by
    simp only [after]
    rw [hu]
  have hl : Kernel.perturbLoop S.g S.chk S.roots (proposals S k w.seed w.clock) 100 0 none w.st = (s, some (0, some ps)) := by
    rw [show 100 = 99 + 1 from rfl, Kernel.perturbLoop, hp]
    simp only
    rw [o1, hps, h1]
  refine ⟨s, ?_, h2, h3⟩
  unfold perturb Kernel.perturb
  rw [hl]
  simp [ha]

/-- A proposal that is accepted at once. -/
theorem propose_first (S : Site α Y K) (hap : RootsApart S.g S.roots) (k : K) (w : Worker α) (hw : Clean w.st) (pairs : List (Nat × List α)) (c : Nat) (hu : S.update k w.seed w.clock = (c, some pairs)) (ps : List α)
    (hps : ((S.roots.flatMap (unfold S.g)).eraseDups).flatMap (firstParams pairs) = ps) (val val' : Nat → Option α) (n n' : Nat)
    (h : assignInOrder S.chk ps (order S.g S.roots) 0 w.st.value = .ok (val, n)) (h' : assignInOrder S.chk ps (order S.g S.roots) 0 val = .ok (val', n'))
    (hd : pdfVal S.g (fun v => S.dens val' v (if v ∈ order S.g S.roots then ps[(order S.g S.roots).idxOf v]? else none)) (fun _ => false) (above S.g S.roots) ≠ 0) (fuel : Nat) :
    ∃ s, propose S k (fuel + 1) w = some (⟨w.seed, s, c⟩, ps) ∧ s.value = val' ∧ Clean s := by
  obtain ⟨s, h1, h2, h3⟩ := perturb_first S hap k w hw pairs c hu ps hps val n h
  obtain ⟨t, t1, t2, t3⟩ := pdf_ok S hap ps s h3 val' n' (by rw [h2]; exact h')
  refine ⟨t, ?_, t2, t3⟩
  rw [propose, h1]
  simp only
  rw [t1]
  simp only
  rw [if_pos hd]

/-! ### An arithmetic expression between parameter and simulator -/

theorem opG_apart : RootsApart Models.opG [2] := by
  intro r hr r' hr' h
  simp only [List.mem_singleton] at hr hr'
  subst hr hr'
  exact absurd h.lt (lt_irrefl _)

theorem opG_order : order Models.opG [2] = [0] := by
  simp [order, above, unfold_eq, Models.opG, G.ofTable, List.eraseDups_cons, Kind.isFree]

/-- Parameter `X`, and a simulator that returns its input, the expression `X + X`. -/
noncomputable def doubled : Site Int Int (Pmc.Pop (List (Option Int)) × Nat) where
  g := Models.opG
  roots := [2]
  chk _ _ _ := .accept
  dens _ _ _ := 1
  prior _ := ⟨fun _ _ _ => none, fun _ _ _ => true⟩
  tries := 1
  simulate _ vals c := (c, (vals 1).getD 0)
  update _ _ c := (c, some [(0, [50])])
  choice _ _ c := (c, 0)
  dist y := |(y : ℝ) - 2|
  distMax := none

/-- C138 fails with an arithmetic expression among the inputs of the simulator: it is not computed again after a perturbation, so the particle `X = 50` is accepted with distance zero for data simulated at `X = 1`; for every
value that a graph with `X = 50` could give to the expression `X + X`, the distance is 98. -/
theorem C138_arithmetic_violated :
    ∃ st : St Int, Clean st ∧ st.value 0 = some 1 ∧ st.value 1 = some 2 ∧
      (resampleTask doubled 5 (some ⟨[[some 1]], [1]⟩) 3 0 st).2 = some ([some 50], 0, 1) ∧
      ∀ vals seed clock, vals 0 = some 50 → vals 1 = some (50 + 50) → doubled.dist (doubled.simulate seed vals clock).2 = 98 := by
  refine ⟨⟨fun _ => false, fun _ => false, fun v => if v = 0 then some 1 else if v = 1 then some 2 else none⟩, fun _ => rfl, rfl, rfl, ?_, ?_⟩
  · generalize hst : (⟨fun _ => false, fun _ => false, fun v => if v = 0 then some 1 else if v = 1 then some 2 else none⟩ : St Int) = st
    have hcl : Clean st := by subst hst; exact fun _ => rfl
    have hv : st.value 1 = some 2 := by subst hst; rfl
    have ho : order doubled.g doubled.roots = [0] := opG_order
    have hap : RootsApart doubled.g doubled.roots := opG_apart
    obtain ⟨-, g2, g3⟩ := getParameters_eq doubled.g doubled.roots st hcl
    have has : ∀ val : Nat → Option Int, assignInOrder doubled.chk [50] (order doubled.g doubled.roots) 0 val = .ok (fun y => if y = 0 then some 50 else val y, 1) := by
      intro val
      rw [ho]
      rfl
    obtain ⟨s, p1, p2, p3⟩ := propose_first doubled hap ((⟨[[some 1]], [1]⟩, 0) : Pmc.Pop (List (Option Int)) × Nat) ⟨0, (getParameters doubled.g doubled.roots st).1, 0⟩ g2 [(0, [50])] 0 rfl [50]
      (by
        simp [doubled, unfold_eq, Models.opG, G.ofTable, List.eraseDups_cons, firstParams]) _ _ _ _ (has _) (has _)
      (by
        rw [pdfVal, prodOver, prodOver]
        simp [doubled]) 1
    have hsim : (simulate doubled ⟨0, s, 0⟩).2 = 2 := by
      unfold simulate
      simp only [doubled]
      rw [p2]
      simp only [Nat.one_ne_zero, if_false]
      simp [g3, hv]
    have hd : doubled.dist 2 = 0 := by simp [doubled]
    unfold resampleTask
    simp only
    rw [resampleLoop.eq_def]
    simp only
    have hab : Pmc.above doubled.distMax 5 = true := rfl
    rw [if_pos hab]
    have hch : doubled.choice 0 [1] 0 = (0, 0) := rfl
    simp only [hch]
    rw [p1]
    simp only
    rw [hsim, hd, resampleLoop.eq_def]
    simp only
    have hab' : ¬ (Pmc.above (some 0) 5 = true) := by simp [Pmc.above]
    rw [if_neg hab']
    rfl
  · intro vals seed clock _ h1
    simp only [doubled, h1]
    norm_num

/-! ### A parameter whose support depends on another one -/

/-- `a` with non-negative values (node 0), `b` uniform between 0 and `a` (node 1), and a simulator that returns `b`. The kernel proposes `b = 5`, `a = 6`. -/
noncomputable def nested : Site Int Int Nat where
  g := chainG
  roots := [2]
  chk vals v x := if v = 1 then (if 0 ≤ x ∧ x ≤ (vals 0).getD 0 then .accept else .reject) else if 0 ≤ x then .accept else .reject
  dens vals v o := match o with
    | some x => if v = 1 then (if 0 ≤ x ∧ x ≤ (vals 0).getD 0 then 1 / ((vals 0).getD 0 : ℝ) else 0) else if 0 ≤ x then 1 else 0
    | none => 1
  prior _ := ⟨fun _ _ _ => none, fun _ _ _ => true⟩
  tries := 1
  simulate _ vals c := (c, (vals 1).getD 0)
  update _ _ c := (c, some [(0, [6]), (1, [5])])
  choice _ _ c := (c, 0)
  dist y := |(y : ℝ)|
  distMax := none

theorem nested_sound : Sound nested where
  apart := chainG_apart
  direct r hr p hp := by
    simp only [nested, List.mem_singleton] at hr
    subst hr
    have : p = 1 := by simpa [nested, chainG, G.ofTable] using hp
    subst this
    simp [nested, chainG, G.ofTable]
  reads seed vals vals' c h := by
    have := h 2 (by simp [nested]) 1 (by simp [nested, chainG, G.ofTable])
    simp only [nested, this]
  kernel k seed c pairs h := by
    simp only [nested, Option.some.injEq] at h
    subst h
    have : order nested.g nested.roots = [1, 0] := chainG_order
    rw [this]
    exact ⟨by simpa using List.Perm.swap 1 0 [], by simp⟩
  refused vals v x h := by
    simp only [nested] at h ⊢
    by_cases hv : v = 1
    · simp only [hv, if_true] at h ⊢
      by_cases hx : 0 ≤ x ∧ x ≤ (vals 0).getD 0
      · rw [if_pos hx] at h; cases h
      · rw [if_neg hx]
    · simp only [hv, if_false] at h ⊢
      by_cases hx : 0 ≤ x
      · rw [if_pos hx] at h; cases h
      · rw [if_neg hx]

/-- Random numbers for which everything is accepted. -/
def lucky : Rng := ⟨fun _ _ c => (c, true), fun _ c => (c, 0), fun _ _ c => (c, 0), fun _ _ c => (c, 0)⟩

/-- C138 fails for `SMCABC` if the support of a parameter depends on another parameter: an accepted proposal is stored after the density of the old particle was computed, so it is checked against old values; here it is
refused, and the old particle (`b = 1`, `a = 2`) is returned with the data of the proposal (`b = 5`, `a = 6`), which are neither its old data nor data that the simulator can produce with its values. -/
theorem C138_smcabc_violated :
    ∃ (S : Site Int Int Nat) (R : Rng) (st : St Int), Sound S ∧ Clean st ∧ ∀ (consts : Nat → Option Int) (kern : Pmc.Pop (List (Option Int)) → List (Option Int) → List (Option Int) → ℝ),
      ∃ w' o, smcTask0 S R (fun _ i => i) kern (fun _ => [0]) 1 10 ⟨[[some 1, some 2]], [1]⟩ 0 [some 1, some 2] 1 1 ⟨0, st, 0⟩ = some (w', o) ∧
        o.θ = [some 1, some 2] ∧ o.y = 5 ∧ o.y ≠ 1 ∧ ¬ From S consts o.θ o.y := by
  generalize hst : (⟨fun _ => false, fun _ => false, fun v => if v = 0 then some 6 else some 5⟩ : St Int) = st
  have hcl : Clean st := by subst hst; exact fun _ => rfl
  have hv : st.value 0 = some 6 := by subst hst; rfl
  refine ⟨nested, lucky, st, nested_sound, hcl, fun consts kern => ?_⟩
  have ho : order nested.g nested.roots = [1, 0] := chainG_order
  have hap : RootsApart nested.g nested.roots := chainG_apart
  have hup : ∀ val : Nat → Option Int, val 0 = some 6 → assignInOrder nested.chk [5, 6] (order nested.g nested.roots) 0 val =
      .ok (fun y => if y = 0 then some 6 else if y = 1 then some 5 else val y, 2) := by
    intro val h
    rw [ho]
    simp [assignInOrder, nested, h]
  have hdown : ∀ val : Nat → Option Int, val 0 = some 6 → assignInOrder nested.chk [1, 2] (order nested.g nested.roots) 0 val =
      .ok (fun y => if y = 0 then some 2 else if y = 1 then some 1 else val y, 2) := by
    intro val h
    rw [ho]
    simp [assignInOrder, nested, h]
  have hno : ∀ val : Nat → Option Int, val 0 = some 2 → assignInOrder nested.chk [5, 6] (order nested.g nested.roots) 0 val = .error (.rejected 0, val) := by
    intro val h
    rw [ho]
    simp [assignInOrder, nested, h]
  have hab : above nested.g nested.roots = [1, 0] := by
    simp [above, unfold_eq, nested, chainG, G.ofTable]
  obtain ⟨s, p1, p2, p3⟩ := propose_first nested hap 0 ⟨0, st, 0⟩ hcl [(0, [6]), (1, [5])] 0 rfl [5, 6]
    (by simp [nested, unfold_eq, chainG, G.ofTable, List.eraseDups_cons, firstParams]) _ _ _ _ (hup _ hv) (hup _ rfl)
    (by
      rw [hab, ho, pdfVal, prodOver, prodOver]
      simp [nested, Graph.fresh, isCont, isDisc, chainG, G.ofTable, List.idxOf_cons]) 0
  have hsim : (simulate nested ⟨0, s, 0⟩) = (⟨0, s, 0⟩, 5) := by
    unfold simulate
    simp only [nested]
    rw [p2]
    simp
  obtain ⟨t, t1, t2, t3⟩ := pdf_ok nested hap [5, 6] s p3 _ _ (hup s.value (by rw [p2]; rfl))
  obtain ⟨u, u1, u2, u3⟩ := pdf_ok nested hap [1, 2] t t3 _ _ (hdown t.value (by rw [t2]; rfl))
  obtain ⟨v, v1, v2, v3⟩ := set_rejected nested hap [5, 6] u u3 _ _ (hno u.value (by rw [u2]; rfl))
  obtain ⟨g1, -, -⟩ := getParameters_eq nested.g nested.roots v v3
  have hθ : (getParameters nested.g nested.roots v).2 = [some 1, some 2] := by
    rw [g1, ho, v2, u2]
    simp
  have r1 : (([5, 6] : List Int).map some).reduceOption = [5, 6] := reduce_map_some _
  have r2 : ([some 1, some 2] : List (Option Int)).reduceOption = [1, 2] := rfl
  refine ⟨⟨0, (getParameters nested.g nested.roots v).1, 0⟩, ⟨[some 1, some 2], 5, nested.dist 5, 1⟩, ?_, rfl, rfl, by decide, ?_⟩
  · unfold smcTask0
    rw [if_pos one_pos, p1]
    simp only
    rw [hsim]
    simp only
    unfold density
    rw [r1]
    simp only
    rw [t1]
    simp only
    rw [r2, u1]
    simp only [advance, lucky, if_true]
    unfold smcEnd store
    rw [r1]
    simp only
    rw [v1]
    simp only [readOut, hθ]
  · rintro ⟨seed, clock, h⟩
    have : valuesOf nested consts [some 1, some 2] 1 = some 1 := by
      unfold valuesOf
      rw [ho]
      simp [List.idxOf_cons]
    have h' : (5 : Int) = ((valuesOf nested consts [some 1, some 2] 1).getD 0) := h
    rw [this] at h'
    exact absurd h' (by decide)

end Verif.Site
