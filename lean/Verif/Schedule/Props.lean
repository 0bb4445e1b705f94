import Verif.Schedule.Model
import Verif.Graph.Fresh
import Verif.Wasserstein.Model
import Mathlib.Tactic.NormNum
import Mathlib.Tactic.Linarith
import Mathlib.Data.List.Perm.Basic
/-
C123: with given seeds the result of a parallel map of tasks does not depend on the number of processes, on the schedule, or on what the sampler did before.
-/
namespace Verif.Schedule

open Graph

variable {T S O : Type}

/-- Specification: a schedule of `n` tasks runs each task once. -/
def Complete (n : Nat) (schedule : List (Nat × Nat)) : Prop := (schedule.map (·.2)).Perm (List.range n)

theorem execute_eq (run : T → S → S × O) (tasks : Nat → T) (R : S → S → Prop) (hout : ∀ t s s', R s s' → (run t s).2 = (run t s').2) (s0 : S)
    (hstep : ∀ t s, R s s0 → R (run t s).1 s0) (l : List (Nat × Nat)) (objects : Nat → S) (h : ∀ p, R (objects p) s0) :
    execute run tasks l objects = l.map fun e => (e.2, (run (tasks e.2) s0).2) := by
  induction l generalizing objects with
  | nil => rfl
  | cons e l ih =>
    obtain ⟨p, i⟩ := e
    rw [execute, List.map_cons, ih]
    · rw [hout _ _ _ (h p)]
    · intro q
      by_cases hq : q = p
      · subst hq; simp only [Function.update_self]; exact hstep _ _ (h q)
      · simp only [Function.update_of_ne hq]; exact h q

theorem find_first (n : Nat) (f : Nat → O) (l : List (Nat × Nat)) (i : Nat) (hi : i ∈ l.map (·.2)) :
    ((l.map fun e => (e.2, f e.2)).find? fun r => r.1 == i).map (·.2) = some (f i) := by
  induction l with
  | nil => simp at hi
  | cons e l ih =>
    simp only [List.map_cons, List.find?_cons]
    by_cases h : e.2 = i
    · simp [h]
    · have : (e.2 == i) = false := by simpa using h
      simp only [this]
      exact ih (by simpa [Ne.symm h] using hi)

/-- Results of maps of tasks whose result depends on the object only up to `R`. -/
theorem maps_agree (run : T → S → S × O) (tasks : Nat → T) (R : S → S → Prop) (hrefl : ∀ s, R s s) (hout : ∀ t s s', R s s' → (run t s).2 = (run t s').2) (s0 : S)
    (hstep : ∀ t s, R s s0 → R (run t s).1 s0) (n : Nat) (schedule : List (Nat × Nat)) (hc : Complete n schedule) :
    mapMpi run tasks n schedule s0 = (List.range n).map (fun i => some (run (tasks i) s0).2) ∧
    (mapSequential run tasks n s0).2 = (List.range n).map (fun i => (run (tasks i) s0).2) ∧ R (mapSequential run tasks n s0).1 s0 := by
  refine ⟨?_, ?_⟩
  · unfold mapMpi
    rw [execute_eq run tasks R hout s0 hstep _ _ fun _ => hrefl s0]
    apply List.map_congr_left
    intro i hi
    exact find_first n (fun i => (run (tasks i) s0).2) schedule i (hc.mem_iff.mpr hi)
  · have : ∀ (l : List Nat) (s : S) (acc : List O), R s s0 →
        (l.foldl (fun r i => let q := run (tasks i) r.1; (q.1, r.2 ++ [q.2])) (s, acc)).2 = acc ++ l.map (fun i => (run (tasks i) s0).2) ∧
        R (l.foldl (fun r i => let q := run (tasks i) r.1; (q.1, r.2 ++ [q.2])) (s, acc)).1 s0 := by
      intro l
      induction l with
      | nil => intro s acc h; simp [h]
      | cons i l ih =>
        intro s acc h
        simp only [List.foldl_cons, List.map_cons]
        have := ih (run (tasks i) s).1 (acc ++ [(run (tasks i) s).2]) (hstep _ _ h)
        rw [this.1]
        refine ⟨?_, this.2⟩
        rw [hout _ _ _ h]
        simp
    simpa [mapSequential] using this (List.range n) s0 [] (hrefl s0)

/-! ### RejectionABC -/

variable {α D Y : Type}

/-- Specification of a well-behaved setup: draws read nodes above and stay in the support, the simulator reads the constants and the variables above the roots, the parameters are above the roots, and the value
of a distance does not depend on the state of the distance object. -/
structure Reproducible (p : Setup α D Y) : Prop where
  apart : RootsApart p.g p.roots
  prior : ∀ seed, Proper p.g (p.prior seed)
  reads : ∀ seed vals vals' clock, (∀ q, (∃ r ∈ p.roots, Anc p.g q r) ∨ p.g.kind q = .hyper → vals q = vals' q) → p.simulate seed vals clock = p.simulate seed vals' clock
  order : ∀ q ∈ p.order, ∃ r ∈ p.roots, Anc p.g q r
  dist : ∀ d d' y, (p.dist d y).2 = (p.dist d' y).2

/-- Objects with the same constants and no marks left (C03). -/
structure Alike (p : Setup α D Y) (a b : Smp α × D) : Prop where
  cleanLeft : Clean a.1.st
  cleanRight : Clean b.1.st
  constants : ∀ q, p.g.kind q = .hyper → a.1.st.value q = b.1.st.value q

theorem sampleFromPrior_clean (g : G) (sm : Sim α) (roots : List Nat) (hap : RootsApart g roots) (n : Nat) (s s' : Smp α) (hs : Clean s.st) (h : sampleFromPrior g sm roots n s = some s') : Clean s'.st := by
  induction n generalizing s with
  | zero => simp [sampleFromPrior] at h
  | succ n ih =>
    have hsp := sampleAttempt_spec g sm roots hap { s with log := [] } hs rfl
    rw [sampleFromPrior] at h
    cases hr : sampleAttempt g sm roots { s with log := [] } with
    | ok s1 =>
      rw [hr] at h hsp
      simp only [Option.some.injEq] at h
      subst h
      exact hsp.2.2
    | error s1 =>
      rw [hr] at h hsp
      exact ih _ hsp.2.2 h

theorem rejectLoop_alike (p : Setup α D Y) (hp : Reproducible p) (eps : ℝ) (seed fuel : Nat) : ∀ (s t : Smp α) (d d' : D) (θ : Option (List (Option α))) (x : ℝ) (c : Nat),
    s.clock = t.clock → Alike p (s, d) (t, d') →
    Option.Rel (fun a b => Alike p a.1 b.1 ∧ a.2 = b.2) (rejectLoop p eps seed fuel s d θ x c) (rejectLoop p eps seed fuel t d' θ x c) := by
  induction fuel with
  | zero => intros; exact .none
  | succ fuel ih =>
    intro s t d d' θ x c hclock ha
    rw [rejectLoop, rejectLoop]
    by_cases hx : x > eps
    · rw [if_pos hx, if_pos hx]
      have key := C123_prior p.g (p.prior seed) (hp.prior seed) p.roots hp.apart fuel s t ha.cleanLeft ha.cleanRight hclock ha.constants
      cases hs : sampleFromPrior p.g (p.prior seed) p.roots fuel s with
      | none =>
        rw [hs] at key
        cases ht : sampleFromPrior p.g (p.prior seed) p.roots fuel t with
        | none => exact .none
        | some t' => rw [ht] at key; cases key
      | some s' =>
        rw [hs] at key
        cases ht : sampleFromPrior p.g (p.prior seed) p.roots fuel t with
        | none => rw [ht] at key; cases key
        | some t' =>
          rw [ht] at key
          cases key with
          | some k =>
            obtain ⟨k1, k2, k3⟩ := k
            have hc := sampleFromPrior_clean p.g (p.prior seed) p.roots hp.apart fuel s s' ha.cleanLeft hs
            have hc' := sampleFromPrior_clean p.g (p.prior seed) p.roots hp.apart fuel t t' ha.cleanRight ht
            have hy : p.simulate seed s'.st.value s'.clock = p.simulate seed t'.st.value t'.clock := by
              rw [k1]; exact hp.reads seed _ _ _ k3
            have hθ : p.order.map s'.st.value = p.order.map t'.st.value := List.map_congr_left fun q hq => k3 q (.inl (hp.order q hq))
            have hal : ∀ e e' : D, Alike p ({ s' with clock := (p.simulate seed t'.st.value t'.clock).1 }, e) ({ t' with clock := (p.simulate seed t'.st.value t'.clock).1 }, e') :=
              fun e e' => ⟨hc, hc', fun q hq => k3 q (.inr hq)⟩
            simp only [hy, hθ]
            cases hyy : (p.simulate seed t'.st.value t'.clock).2 with
            | none => exact ih _ _ _ _ _ _ _ rfl (hal d d')
            | some y =>
              simp only
              have hd := hp.dist d d' y
              rcases h1 : p.dist d y with ⟨e, r⟩
              rcases h2 : p.dist d' y with ⟨e', r'⟩
              rw [h1, h2] at hd
              simp only at hd
              subst hd
              cases r with
              | none => exact .none
              | some x' => exact ih _ _ _ _ _ _ _ rfl (hal e e')
    · rw [if_neg hx, if_neg hx]
      cases θ with
      | none => exact .none
      | some θ => exact .some ⟨ha, rfl⟩

theorem reject_tasks (p : Setup α D Y) (hp : Reproducible p) (eps : ℝ) (fuel n : Nat) (seeds : Nat → Nat) :
    (∀ t a b, Alike p a b → (rejectTask p eps fuel t a).2 = (rejectTask p eps fuel t b).2) ∧
    ∀ (o : Smp α × D), Clean o.1.st → ∀ sch, Complete n sch →
      mapMpi (rejectTask p eps fuel) seeds n sch o = (List.range n).map (fun i => some (rejectTask p eps fuel (seeds i) o).2) ∧
      (mapSequential (rejectTask p eps fuel) seeds n o).2 = (List.range n).map (fun i => (rejectTask p eps fuel (seeds i) o).2) := by
  have hrel : ∀ t a b, Alike p a b → (rejectTask p eps fuel t a).2 = (rejectTask p eps fuel t b).2 ∧ Alike p (rejectTask p eps fuel t a).1 (rejectTask p eps fuel t b).1 := by
    intro t a b h
    have key := rejectLoop_alike p hp eps t fuel { a.1 with clock := 0 } { b.1 with clock := 0 } a.2 b.2 none p.distMax 0 rfl ⟨h.cleanLeft, h.cleanRight, h.constants⟩
    unfold rejectTask
    cases h1 : rejectLoop p eps t fuel { a.1 with clock := 0 } a.2 none p.distMax 0 with
    | none =>
      rw [h1] at key
      cases h2 : rejectLoop p eps t fuel { b.1 with clock := 0 } b.2 none p.distMax 0 with
      | none => exact ⟨rfl, h⟩
      | some _ => rw [h2] at key; cases key
    | some r =>
      rw [h1] at key
      cases h2 : rejectLoop p eps t fuel { b.1 with clock := 0 } b.2 none p.distMax 0 with
      | none => rw [h2] at key; cases key
      | some r' =>
        rw [h2] at key
        cases key with
        | some k => exact ⟨congrArg some k.2, k.1⟩
  have htrans : ∀ a b c : Smp α × D, Alike p a b → Alike p b c → Alike p a c := fun a b c h h' =>
    ⟨h.cleanLeft, h'.cleanRight, fun q hq => (h.constants q hq).trans (h'.constants q hq)⟩
  have hself : ∀ t a, Clean a.1.st → Alike p (rejectTask p eps fuel t a).1 a := by
    intro t a hcl
    have haa : Alike p a a := ⟨hcl, hcl, fun _ _ => rfl⟩
    have hprior : ∀ (f : Nat) (s s' : Smp α), Clean s.st → sampleFromPrior p.g (p.prior t) p.roots f s = some s' → ∀ q, p.g.kind q = .hyper → s'.st.value q = s.st.value q := by
      intro f
      have hnode : ∀ (s s' : Smp α), Replays p.g (p.prior t) s s' → ∀ q, p.g.kind q = .hyper → s'.st.value q = s.st.value q := by
        rintro s s' ⟨l, -, h⟩ q hq
        have hdraw : ∀ (l : List Nat) (vals : Nat → Option α) (c : Nat), (drawAll p.g (p.prior t) l vals c).1 q = vals q := by
          intro l
          induction l with
          | nil => intros; rfl
          | cons v l ih =>
            intro vals c
            rw [drawAll]
            split
            · exact ih _ _
            · rename_i hv
              have hne : q ≠ v := fun e => hv (e ▸ hq)
              split
              · exact ih _ _
              · rw [ih]
                split
                · exact Function.update_of_ne hne _ _
                · rfl
        have := congrArg Prod.fst h
        simp only at this
        rw [this]
        exact hdraw _ _ _
      induction f with
      | zero => intro s s' _ h; simp [sampleFromPrior] at h
      | succ f ih =>
        intro s s' hcl h q hq
        have hsp := sampleAttempt_spec p.g (p.prior t) p.roots hp.apart { s with log := [] } hcl rfl
        have hrp := sampleAttempt_replays p.g (p.prior t) p.roots { s with log := [] }
        rw [sampleFromPrior] at h
        cases hr : sampleAttempt p.g (p.prior t) p.roots { s with log := [] } with
        | ok s1 =>
          rw [hr] at h hrp
          simp only [Option.some.injEq] at h
          subst h
          simp only [resetFlags_eq]
          exact hnode _ _ hrp q hq
        | error s1 =>
          rw [hr] at h hrp hsp
          rw [ih _ _ hsp.2.2 h q hq]
          simp only [resetFlags_eq]
          exact hnode _ _ hrp q hq
    have hloop : ∀ (f : Nat) (s : Smp α) (d : D) θ x c r, Clean s.st → rejectLoop p eps t f s d θ x c = some r → Clean r.1.1.st ∧ ∀ q, p.g.kind q = .hyper → r.1.1.st.value q = s.st.value q := by
      intro f
      induction f with
      | zero => intro s d θ x c r _ h; simp [rejectLoop] at h
      | succ f ih =>
        intro s d θ x c r hcl h
        rw [rejectLoop] at h
        split at h
        · split at h
          · cases h
          · rename_i s1 hs1
            have hc1 := sampleFromPrior_clean p.g (p.prior t) p.roots hp.apart f s s1 hcl hs1
            have hv1 := hprior f s s1 hcl hs1
            simp only at h
            split at h
            · obtain ⟨a1, a2⟩ := ih _ _ _ _ _ _ (by exact hc1) h
              exact ⟨a1, fun q hq => (a2 q hq).trans (hv1 q hq)⟩
            · split at h
              · cases h
              · obtain ⟨a1, a2⟩ := ih _ _ _ _ _ _ (by exact hc1) h
                exact ⟨a1, fun q hq => (a2 q hq).trans (hv1 q hq)⟩
        · cases θ with
          | none => simp at h
          | some θ =>
            simp only [Option.map_some, Option.some.injEq] at h
            subst h
            exact ⟨hcl, fun _ _ => rfl⟩
    unfold rejectTask
    split
    · exact haa
    · rename_i r hr
      obtain ⟨a1, a2⟩ := hloop _ _ _ _ _ _ _ (by exact hcl) hr
      exact ⟨a1, hcl, a2⟩
  refine ⟨fun t a b h => (hrel t a b h).1, ?_⟩
  intro o ho sch hsch
  have := maps_agree (rejectTask p eps fuel) seeds (fun a b => a = b ∨ Alike p a b) (fun s => .inl rfl)
    (by rintro t s s' (rfl | h); rfl; exact (hrel t s s' h).1) o
    (by
      rintro t s (rfl | h)
      · exact .inr (hself t _ ho)
      · exact .inr (htrans _ _ _ (hself t s h.cleanLeft) h)) n sch hsch
  exact ⟨this.1, this.2.1⟩

/-- C123: what the tasks of `RejectionABC` return with given seeds (parameters, distance, number of simulations of each) does not depend on the number of processes and on the schedule, and is what the
sequential backend gives; nor does it depend on what the sampler did before: `object'` is any other state of it with the same constants. -/
theorem C123_partial (p : Setup α D Y) (hp : Reproducible p) (eps : ℝ) (fuel n : Nat) (seeds : Nat → Nat) (schedule schedule' : List (Nat × Nat)) (hc : Complete n schedule) (hc' : Complete n schedule')
    (object object' : Smp α × D) (ha : Alike p object object') :
    mapMpi (rejectTask p eps fuel) seeds n schedule object = mapMpi (rejectTask p eps fuel) seeds n schedule' object' ∧
    mapMpi (rejectTask p eps fuel) seeds n schedule object = (mapSequential (rejectTask p eps fuel) seeds n object').2.map some := by
  obtain ⟨hrel, hmain⟩ := reject_tasks p hp eps fuel n seeds
  have e : ∀ i, (rejectTask p eps fuel (seeds i) object).2 = (rejectTask p eps fuel (seeds i) object').2 := fun i => hrel _ _ _ ha
  obtain ⟨a1, a2⟩ := hmain object ha.cleanLeft schedule hc
  obtain ⟨b1, b2⟩ := hmain object' ha.cleanRight schedule' hc'
  refine ⟨?_, ?_⟩
  · rw [a1, b1]
    exact List.map_congr_left fun i _ => by rw [e]
  · rw [a1, b2, List.map_map]
    exact List.map_congr_left fun i _ => by simp [e]

/-! ### Distances that draw -/

/-- The cost of transport between one point and one point. -/
noncomputable def onePoint : Wasserstein.Emd1 := fun {n m} x y _ _ => if h : 0 < n ∧ 0 < m then (x ⟨0, h.1⟩ - y ⟨0, h.2⟩) ^ 2 else 0

/-- A generator that draws the two directions of the plane in turn. -/
def turn : Nat → Nat → List Distance.Row × Nat := fun _ k => ([if k % 2 = 0 then [1, 0] else [0, 1]], k + 1)

/-- One parameter drawn around a constant, data in the plane, and the distance in question. -/
noncomputable def plane {D : Type} (dist : D → Distance.Stats → D × Option ℝ) : Setup Int D Distance.Stats where
  g := lineG
  roots := [2]
  order := [1]
  prior k := ⟨fun vals v _ => if v = 1 then (vals 0).map (· + (k : Int)) else none, fun _ _ _ => true⟩
  simulate _ _ c := (c + 1, some ⟨2, [[1, 0]]⟩)
  dist := dist
  distMax := 3

noncomputable def drawing : Nat → Distance.Stats → Nat × Option ℝ := fun w y =>
  ((Wasserstein.slicedDistance onePoint turn ⟨2, [[0, 0]]⟩ y w).2, (Wasserstein.slicedDistance onePoint turn ⟨2, [[0, 0]]⟩ y w).1.toOption)

theorem plane_reproducible {D : Type} (dist : D → Distance.Stats → D × Option ℝ) (h : ∀ d d' y, (dist d y).2 = (dist d' y).2) : Reproducible (plane dist) where
  apart := by
    intro r hr r' hr' h
    simp only [plane, List.mem_singleton] at hr hr'
    subst hr hr'
    exact absurd h.lt (lt_irrefl _)
  prior k := by
    refine ⟨?_, fun _ _ _ _ _ => rfl⟩
    intro vals vals' v t h
    by_cases e : v = 1
    · subst e
      simp only [plane, if_true]
      rw [h 0 (.input (by simp [plane, lineG]))]
    · simp [plane, e]
  reads _ _ _ _ _ := rfl
  order q hq := by
    simp only [plane, List.mem_singleton] at hq
    subst hq
    exact ⟨2, by simp [plane], .input (by simp [plane, lineG])⟩
  dist := h

/-- A sampler that has just been made. -/
def fresh {D : Type} (d : D) : Smp Int × D := (⟨⟨fun _ => false, fun _ => false, fun v => if v = 0 then some 7 else none⟩, 0, []⟩, d)

theorem plane_prior {D : Type} (dist : D → Distance.Stats → D × Option ℝ) (k f : Nat) (s : Smp Int) (hc : s.st.visited = fun _ => false) (h0 : s.st.value 0 = some 7) :
    ∃ s', sampleFromPrior (plane dist).g ((plane dist).prior k) (plane dist).roots (f + 1) s = some s' ∧ s'.st.visited = (fun _ => false) ∧ s'.st.value 0 = some 7 ∧
      s'.st.value 1 = some (7 + (k : Int)) := by
  have hcl : ∀ s', sampleFromPrior (plane dist).g ((plane dist).prior k) (plane dist).roots (f + 1) s = some s' → s'.st.visited = fun _ => false := fun s' h =>
    funext (sampleFromPrior_clean _ _ _ (plane_reproducible (D := Unit) (fun _ _ => ((), none)) fun _ _ _ => rfl).apart (f + 1) s s' (fun v => by rw [hc]) h)
  suffices h : ∃ s', sampleFromPrior (plane dist).g ((plane dist).prior k) (plane dist).roots (f + 1) s = some s' ∧ s'.st.value 0 = some 7 ∧ s'.st.value 1 = some (7 + (k : Int)) by
    obtain ⟨s', e, h⟩ := h
    exact ⟨s', e, hcl s' e, h⟩
  have k0 : lineG.kind 0 = .hyper := rfl
  have k1 : lineG.kind 1 = .cont := rfl
  have p2 : lineG.parents 2 = [1] := rfl
  have p1 : lineG.parents 1 = [0] := rfl
  have p0 : lineG.parents 0 = [] := rfl
  rw [sampleFromPrior]
  simp only [plane, sampleAttempt, forMemE_eq_loopE, loopE, sampleRoot_unfold, sampleStep, sampleNode_unfold, p2, p1, p0, drawNode, k0, k1, mark, hc, h0]
  simp [resetFlags_eq, store, h0]

theorem drawing_eq (w : Nat) : drawing w ⟨2, [[1, 0]]⟩ = (w + 1, some (if w % 2 = 0 then 1 else 0)) := by
  by_cases h : w % 2 = 0 <;>
    simp [drawing, Wasserstein.slicedDistance, Wasserstein.sliced, turn, h, onePoint, Wasserstein.project, Wasserstein.normalise, Except.toOption]

theorem plane_task {D : Type} (dist : D → Distance.Stats → D × Option ℝ) (k : Nat) (s : Smp Int) (d d' : D) (x : ℝ) (hx : x ≤ 2) (hd : dist d ⟨2, [[1, 0]]⟩ = (d', some x))
    (hc : s.st.visited = fun _ => false) (h0 : s.st.value 0 = some 7) :
    ∃ s' : Smp Int, rejectTask (plane dist) 2 3 k (s, d) = ((s', d'), some ([some (7 + (k : Int))], x, 1)) ∧ s'.st.visited = (fun _ => false) ∧ s'.st.value 0 = some 7 := by
  obtain ⟨s1, e1, c1, v1, w1⟩ := plane_prior dist k 1 { s with clock := 0 } hc h0
  refine ⟨{ s1 with clock := s1.clock + 1 }, ?_, c1, v1⟩
  have h1 : rejectLoop (plane dist) 2 k 3 { s with clock := 0 } d none (plane dist).distMax 0 = some (({ s1 with clock := s1.clock + 1 }, d'), [some (7 + (k : Int))], x, 1) := by
    rw [rejectLoop, if_pos (by norm_num [plane]), e1]
    have : (plane dist).simulate k s1.st.value s1.clock = (s1.clock + 1, some ⟨2, [[1, 0]]⟩) := rfl
    simp only [this]
    have hd' : (plane dist).dist d ⟨2, [[1, 0]]⟩ = (d', some x) := hd
    simp only [hd']
    rw [rejectLoop, if_neg (by linarith)]
    simp [plane, w1]
  unfold rejectTask
  simp only [h1]

/-- The hypotheses of `C123_partial` can be met, and the map then returns accepted parameters: 7 plus the seed. -/
example : ∃ p : Setup Int Unit Distance.Stats, Reproducible p ∧ Alike p (fresh ()) (fresh ()) ∧ Complete 2 [(1, 1), (0, 0)] ∧
    mapMpi (rejectTask p 2 3) (fun i => 10 + i) 2 [(1, 1), (0, 0)] (fresh ()) = [some (some ([some 17], 1, 1)), some (some ([some 18], 1, 1))] := by
  refine ⟨plane fun _ _ => ((), some 1), plane_reproducible _ fun _ _ _ => rfl, ⟨fun _ => rfl, fun _ => rfl, fun _ _ => rfl⟩, by simp [Complete, List.range_succ, List.Perm.swap], ?_⟩
  obtain ⟨s, e, -⟩ := plane_task (fun _ _ => ((), some 1)) 11 (fresh ()).1 () () 1 (by norm_num) rfl rfl rfl
  obtain ⟨s', e', -⟩ := plane_task (fun _ _ => ((), some 1)) 10 (fresh ()).1 () () 1 (by norm_num) rfl rfl rfl
  have f : fresh () = ((fresh ()).1, ()) := rfl
  simp only [mapMpi, execute]
  rw [f, e, Function.update_of_ne (by decide), e']
  simp [List.range_succ]

/-- C123, violated part: `SlicedWasserstein` draws its projections from a generator of its own, which the processes copy. With the same seeds, two tasks on one process and on two processes
give different distances: `SlicedWasserstein.distance` (model `Wasserstein.slicedDistance`) is used as it is, all other parts are reproducible. -/
theorem C123_violated : ∃ (p : Setup Int Nat Distance.Stats) (draw : Nat → Nat → List Distance.Row × Nat) (obs : Distance.Stats) (object : Smp Int × Nat),
    (∀ w y, p.dist w y = ((Wasserstein.slicedDistance onePoint draw obs y w).2, (Wasserstein.slicedDistance onePoint draw obs y w).1.toOption)) ∧
    Reproducible ({ p with dist := fun w _ => (w, some 0) } : Setup Int Nat Distance.Stats) ∧ Clean object.1.st ∧ Complete 2 [(0, 0), (0, 1)] ∧ Complete 2 [(0, 0), (1, 1)] ∧
    mapMpi (rejectTask p 2 3) (fun i => 10 + i) 2 [(0, 0), (0, 1)] object = [some (some ([some 17], 1, 1)), some (some ([some 18], 0, 1))] ∧
    mapMpi (rejectTask p 2 3) (fun i => 10 + i) 2 [(0, 0), (1, 1)] object = [some (some ([some 17], 1, 1)), some (some ([some 18], 1, 1))] := by
  refine ⟨plane drawing, turn, ⟨2, [[0, 0]]⟩, fresh 0, fun _ _ => rfl, plane_reproducible (fun w _ => (w, some 0)) fun _ _ _ => rfl, fun _ => rfl,
    by simp [Complete, List.range_succ], by simp [Complete, List.range_succ], ?_, ?_⟩
  · obtain ⟨s, e, c, v⟩ := plane_task drawing 10 (fresh 0).1 0 1 1 (by norm_num) (by rw [drawing_eq]; simp) rfl rfl
    obtain ⟨s', e', -⟩ := plane_task drawing 11 s 1 2 0 (by norm_num) (by rw [drawing_eq]; simp) c v
    have f : fresh 0 = ((fresh 0).1, 0) := rfl
    simp only [mapMpi, execute]
    rw [f, e, Function.update_self, e']
    simp [List.range_succ]
  · obtain ⟨s, e, c, v⟩ := plane_task drawing 10 (fresh 0).1 0 1 1 (by norm_num) (by rw [drawing_eq]; simp) rfl rfl
    obtain ⟨s', e', -⟩ := plane_task drawing 11 (fresh 0).1 0 1 1 (by norm_num) (by rw [drawing_eq]; simp) rfl rfl
    have f : fresh 0 = ((fresh 0).1, 0) := rfl
    simp only [mapMpi, execute]
    rw [f, e, Function.update_of_ne (by decide), e']
    simp [List.range_succ]

end Verif.Schedule
