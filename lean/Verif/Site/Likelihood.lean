import Verif.Site.Run
import Verif.Site.Examples
/-
C154: the data that the approximate likelihoods of `PMC` and `MCMCMetropoliHastings` see, on the graph of models.
-/
namespace Verif.Site

open Graph

variable {α Y K R : Type}

/-! ### Model -/

/-- The observed models: `check v inputs` is `_check_input`, `sim seed v n inputs c` is `forward_simulate` of model `v` for `n` samples with the stream of the seed from position `c` on: new position and samples. -/
structure Simulators (α R : Type) where
  check : Nat → List (Option α) → Bool
  sim : Nat → Nat → Nat → List (Option α) → Nat → Nat × List R

/-- `simulate(n, rng)`, graphtools.py 396-421: the data sets of the models one after the other, with the stored values of their inputs; `None` if one of them refuses. -/
def simulateAll (g : G) (Z : Simulators α R) (seed n : Nat) (vals : Nat → Option α) : List Nat → Nat → Nat × Option (List (List R))
  | [], c => (c, some [])
  | v :: vs, c =>
    if Z.check v ((g.parents v).map vals) then
      let r := Z.sim seed v n ((g.parents v).map vals) c
      let q := simulateAll g Z seed n vals vs r.1
      (q.1, q.2.map (r.2 :: ·))
    else (c, none)

/-- `MCMCMetropoliHastings._sample_parameter`, inferences.py 4461-4484 (`n = 1`): that `set_parameters` refuses is logged only. The outer `none` is an exception. -/
def dataTask (S : Site α Y K) (Z : Simulators α R) (n : Nat) (θ : List (Option α)) (seed : Nat) (st : St α) : St α × Option (Option (List (List R))) :=
  match store S θ ⟨seed, st, 0⟩ with
  | none => (st, none)
  | some w => (w.st, some (simulateAll S.g Z w.seed n w.st.value S.roots w.clock).2)

/-- Lines 4555-4557: the first index becomes the model. `none` is an exception (a task returned `None`, or there are too few entries). -/
def reshape (n k : Nat) (sims : List (Option (List (List R)))) : Option (List (List R)) :=
  collect ((List.range k).map fun m => collect ((List.range n).map fun s => (sims[s]?).join.bind fun y => (y[m]?).bind fun l => l[0]?))

/-- Lines 4542-4557: a task for each of the seeds. -/
def dataParallel (S : Site α Y K) (Z : Simulators α R) (θ : List (Option α)) (seeds : List Nat) (schedule : Option (List (Nat × Nat))) (st : St α) : St α × Option (List (List R)) :=
  let m := runMap (dataTask S Z 1 θ) seeds schedule st
  (m.1, (collect m.2).bind (reshape seeds.length S.roots.length))

/-- Lines 4533-4539: all samples at once, with the generator of the sampler. The result `None` of `simulate` leads to an exception in the likelihood (4503). -/
def dataAtOnce (S : Site α Y K) (Z : Simulators α R) (θ : List (Option α)) (n : Nat) (w : Worker α) : Option (Worker α × List (List R)) :=
  match store S θ w with
  | none => none
  | some w =>
    let r := simulateAll S.g Z w.seed n w.st.value S.roots w.clock
    r.2.map fun y => (⟨w.seed, w.st, r.1⟩, y)

/-! ### Specification -/

/-- The inputs of a model for a vector of parameters. -/
def inputsAt (S : Site α Y K) (consts : Nat → Option α) (θ : List (Option α)) (r : Nat) : List (Option α) := (S.g.parents r).map (valuesOf S consts θ)

/-- `data` has one data set for each observed model, of `n` samples at the parameters `θ`; the models use the stream of the seed one after the other, from position `c` to position `c'`. -/
def Simulated (S : Site α Y K) (consts : Nat → Option α) (Z : Simulators α R) (θ : List (Option α)) (seed n c c' : Nat) (data : List (List R)) : Prop :=
  data.length = S.roots.length ∧ ∃ pos : Nat → Nat, pos 0 = c ∧ pos S.roots.length = c' ∧
    ∀ m r, S.roots[m]? = some r → data[m]? = some (Z.sim seed r n (inputsAt S consts θ r) (pos m)).2 ∧ pos (m + 1) = (Z.sim seed r n (inputsAt S consts θ r) (pos m)).1

/-- The observed models accept their inputs. -/
def Compatible (S : Site α Y K) (consts : Nat → Option α) (Z : Simulators α R) (θ : List (Option α)) : Prop := ∀ r ∈ S.roots, Z.check r (inputsAt S consts θ r) = true

/-- The simulators return as many samples as they are asked for. -/
def Counts (Z : Simulators α R) : Prop := ∀ seed v n inputs c, (Z.sim seed v n inputs c).2.length = n

/-! ### Proofs -/

theorem simulateAll_spec (g : G) (Z : Simulators α R) (seed n : Nat) (vals : Nat → Option α) (inputs : Nat → List (Option α)) (l : List Nat) (h : ∀ r ∈ l, (g.parents r).map vals = inputs r) : ∀ c,
    ((∀ r ∈ l, Z.check r (inputs r) = true) → ∃ data, (simulateAll g Z seed n vals l c).2 = some data ∧ data.length = l.length ∧
      ∃ pos : Nat → Nat, pos 0 = c ∧ pos l.length = (simulateAll g Z seed n vals l c).1 ∧
        ∀ m r, l[m]? = some r → data[m]? = some (Z.sim seed r n (inputs r) (pos m)).2 ∧ pos (m + 1) = (Z.sim seed r n (inputs r) (pos m)).1) ∧
    ((∃ r ∈ l, Z.check r (inputs r) = false) → (simulateAll g Z seed n vals l c).2 = none) := by
  induction l with
  | nil => intro c; exact ⟨fun _ => ⟨[], rfl, rfl, fun _ => c, rfl, rfl, by simp⟩, by simp⟩
  | cons v l ih =>
    intro c
    have hv := h v (by simp)
    obtain ⟨i1, i2⟩ := ih (fun r hr => h r (by simp [hr])) (Z.sim seed v n (inputs v) c).1
    rw [simulateAll, hv]
    refine ⟨fun hc => ?_, ?_⟩
    · rw [if_pos (hc v (by simp))]
      obtain ⟨data, d1, d2, pos, p1, p2, p3⟩ := i1 fun r hr => hc r (by simp [hr])
      refine ⟨(Z.sim seed v n (inputs v) c).2 :: data, by simp [d1], by simp [d2], fun m => match m with | 0 => c | m + 1 => pos m, rfl, p2, ?_⟩
      intro m r hm
      cases m with
      | zero => simp only [List.getElem?_cons_zero, Option.some.injEq] at hm; subst hm; exact ⟨rfl, p1⟩
      | succ m => exact p3 m r (by simpa using hm)
    · rintro ⟨r, hr, hf⟩
      split
      · rename_i hcv
        rcases List.mem_cons.1 hr with rfl | hr
        · rw [hf] at hcv; cases hcv
        · simp [i2 ⟨r, hr, hf⟩]
      · rfl

theorem inputs_held (S : Site α Y K) (hS : Sound S) (consts : Nat → Option α) (θ : List (Option α)) (s : St α) (hs : Good S consts s) (hθ : Holds S s θ) :
    ∀ r ∈ S.roots, (S.g.parents r).map s.value = inputsAt S consts θ r := by
  intro r hr
  unfold inputsAt
  apply List.map_congr_left
  intro p hp
  unfold valuesOf
  by_cases hm : p ∈ order S.g S.roots
  · rw [if_pos hm, ← hθ, List.getElem?_map, List.getElem?_eq_getElem (List.idxOf_lt_length_of_mem hm), Option.map_some, Option.join_some, List.getElem_idxOf]
  · rw [if_neg hm]
    cases hk : S.g.kind p with
    | hyper => exact hs.consts p hk
    | op => exact absurd hk (hS.direct r hr p hp)
    | cont => exact absurd ((mem_order _ _ _).2 ⟨by rw [hk]; rfl, r, hr, .input hp⟩) hm
    | disc => exact absurd ((mem_order _ _ _).2 ⟨by rw [hk]; rfl, r, hr, .input hp⟩) hm

theorem simulateAll_congr (g : G) (Z : Simulators α R) (seed n : Nat) (vals vals' : Nat → Option α) (l : List Nat) (h : ∀ r ∈ l, (g.parents r).map vals = (g.parents r).map vals') :
    ∀ c, simulateAll g Z seed n vals l c = simulateAll g Z seed n vals' l c := by
  induction l with
  | nil => intro c; rfl
  | cons v l ih =>
    intro c
    rw [simulateAll, simulateAll, h v (by simp)]
    split
    · simp only [ih fun r hr => h r (by simp [hr])]
    · rfl

/-- Data with the values of a vector, without a graph that stores values. -/
def dataAt (S : Site α Y K) (consts : Nat → Option α) (Z : Simulators α R) (θ : List (Option α)) (seed n c : Nat) : Nat × Option (List (List R)) :=
  simulateAll S.g Z seed n (valuesOf S consts θ) S.roots c

theorem dataAt_spec (S : Site α Y K) (consts : Nat → Option α) (Z : Simulators α R) (θ : List (Option α)) (seed n c : Nat) :
    (Compatible S consts Z θ → ∃ data, (dataAt S consts Z θ seed n c).2 = some data ∧ Simulated S consts Z θ seed n c (dataAt S consts Z θ seed n c).1 data) ∧
    (¬ Compatible S consts Z θ → (dataAt S consts Z θ seed n c).2 = none) := by
  obtain ⟨h1, h2⟩ := simulateAll_spec S.g Z seed n (valuesOf S consts θ) (inputsAt S consts θ) S.roots (fun _ _ => rfl) c
  refine ⟨fun hc => ?_, fun hc => h2 ?_⟩
  · obtain ⟨data, d1, d2, d3⟩ := h1 hc
    exact ⟨data, d1, d2, d3⟩
  · simp only [Compatible, not_forall] at hc
    obtain ⟨r, hr, hf⟩ := hc
    exact ⟨r, hr, by simpa using hf⟩

/-- The task for one data set, on any graph. -/
theorem dataTask_same (S : Site α Y K) (hS : Plain S) (consts : Nat → Option α) (Z : Simulators α R) (n : Nat) (θ : List (Option α)) (hθ : Fits S consts θ) (seed : Nat) (st : St α) (hst : Good S consts st) :
    (dataTask S Z n θ seed st).2 = some (dataAt S consts Z θ seed n 0).2 ∧ Good S consts (dataTask S Z n θ seed st).1 := by
  obtain ⟨s, h1, h2, h3⟩ := store_same S hS consts θ hθ ⟨seed, st, 0⟩ hst
  have := simulateAll_congr S.g Z seed n s.value (valuesOf S consts θ) S.roots (inputs_held S hS.toSound consts θ s h2 h3) 0
  unfold dataTask dataAt
  rw [h1]
  simp only [this]
  exact ⟨trivial, h2⟩

/-- **C154**, one task for each sample: with the sequential backend, and with the MPI backend for every number of processes and order of tasks, whatever the graphs held before, the likelihood gets one data set
for each observed model, in which sample `j` was simulated by that model at the proposed parameters with the generator of seed `j`; or an exception is raised because a model refuses the parameters. -/
theorem C154_parallel_partial (S : Site α Y K) (hS : Plain S) (consts : Nat → Option α) (Z : Simulators α R) (hZ : Counts Z) (θ : List (Option α)) (hθ : Fits S consts θ) (seeds : List Nat)
    (schedule : Option (List (Nat × Nat))) (hc : Scheduled seeds.length schedule) (st : St α) (hst : Good S consts st) :
    Good S consts (dataParallel S Z θ seeds schedule st).1 ∧
    (Compatible S consts Z θ → ∃ data, (dataParallel S Z θ seeds schedule st).2 = some data ∧ data.length = S.roots.length ∧ (∀ d ∈ data, d.length = seeds.length) ∧
      ∀ (j seed : Nat), seeds[j]? = some seed → ∃ one c', Simulated S consts Z θ seed 1 0 c' one ∧ ∀ (m : Nat) (d : List R), data[m]? = some d → ∃ x, d[j]? = some x ∧ one[m]? = some [x]) ∧
    (¬ Compatible S consts Z θ → seeds ≠ [] → S.roots ≠ [] → (dataParallel S Z θ seeds schedule st).2 = none) := by
  obtain ⟨m1, m2⟩ := runMap_spec (dataTask S Z 1 θ) seeds (Good S consts) (fun seed => some (dataAt S consts Z θ seed 1 0).2) (fun seed _ s hs => dataTask_same S hS consts Z 1 θ hθ seed s hs) schedule hc st hst
  refine ⟨m2, ?_, ?_⟩
  all_goals
    unfold dataParallel
    simp only
    rw [m1, show (seeds.map fun seed => some (dataAt S consts Z θ seed 1 0).2) = (seeds.map fun seed => (dataAt S consts Z θ seed 1 0).2).map some by rw [List.map_map]; rfl, collect_map_some, Option.bind_some]
  · intro hcomp
    have hall : ∀ seed, ∃ one : List (List R), (dataAt S consts Z θ seed 1 0).2 = some one ∧ Simulated S consts Z θ seed 1 0 (dataAt S consts Z θ seed 1 0).1 one :=
      fun seed => (dataAt_spec S consts Z θ seed 1 0).1 hcomp
    choose one h1 h2 using hall
    have hone : ∀ seed m, m < S.roots.length → ∃ x, (one seed)[m]? = some [x] := by
      intro seed m hm
      obtain ⟨-, pos, -, -, hp⟩ := h2 seed
      obtain ⟨e, -⟩ := hp m _ (List.getElem?_eq_getElem hm)
      have hl := hZ seed S.roots[m] 1 (inputsAt S consts θ S.roots[m]) (pos m)
      rw [List.length_eq_one_iff] at hl
      obtain ⟨x, hx⟩ := hl
      exact ⟨x, by rw [e, hx]⟩
    by_cases hR : ∃ _x : R, True
    · obtain ⟨x0, -⟩ := hR
      let val : Nat → Nat → R := fun seed m => (((one seed)[m]?).bind fun l => l[0]?).getD x0
      have hval : ∀ seed m, m < S.roots.length → (one seed)[m]? = some [val seed m] := by
        intro seed m hm
        obtain ⟨x, hx⟩ := hone seed m hm
        simp [val, hx]
      have hres : reshape seeds.length S.roots.length (seeds.map fun seed => (dataAt S consts Z θ seed 1 0).2) = some ((List.range S.roots.length).map fun m => seeds.map fun seed => val seed m) := by
        unfold reshape
        rw [collect_eq_some, List.map_map]
        apply List.map_congr_left
        intro m hm
        rw [List.mem_range] at hm
        simp only [Function.comp_apply]
        rw [collect_eq_some, List.map_map]
        apply List.ext_getElem
        · simp
        · intro j hj1 hj2
          simp only [List.length_map, List.length_range] at hj1
          simp only [List.getElem_map, List.getElem_range, List.getElem?_map, List.getElem?_eq_getElem hj1, Option.map_some, Option.join_some, Function.comp_apply, h1, Option.bind_some,
            hval _ m hm, List.getElem?_cons_zero]
      refine ⟨_, hres, by simp, by simp, ?_⟩
      intro j seed hj
      refine ⟨one seed, _, h2 seed, ?_⟩
      intro m d hm
      rw [List.getElem?_map, Option.map_eq_some_iff] at hm
      obtain ⟨m', hm', rfl⟩ := hm
      obtain ⟨hlt, rfl⟩ := List.getElem?_eq_some_iff.1 hm'
      simp only [List.length_range] at hlt
      refine ⟨val seed m, ?_, hval seed m hlt⟩
      simp [hj]
    · by_cases hr : S.roots.length = 0
      · refine ⟨[], by rw [hr]; rfl, by simp [hr], by simp, fun j seed _ => ⟨one seed, _, h2 seed, by simp⟩⟩
      · obtain ⟨x, -⟩ := hone 0 0 (by omega)
        exact absurd ⟨x, trivial⟩ hR
  · intro hcomp hne hroots
    have hnone : ∀ seed, (dataAt S consts Z θ seed 1 0).2 = none := fun seed => (dataAt_spec S consts Z θ seed 1 0).2 hcomp
    obtain ⟨s0, sl, rfl⟩ := List.exists_cons_of_ne_nil hne
    unfold reshape
    rw [collect_eq_none, List.mem_map]
    refine ⟨0, List.mem_range.2 (List.length_pos_iff.2 hroots), ?_⟩
    rw [collect_eq_none, List.mem_map]
    exact ⟨0, by simp, by simp [hnone]⟩

/-- **C154**, all samples at once: the likelihood gets one data set for each observed model, of `n` samples at the proposed parameters, simulated one model after the other with the generator of the sampler. -/
theorem C154_at_once_partial (S : Site α Y K) (hS : Plain S) (consts : Nat → Option α) (Z : Simulators α R) (hZ : Counts Z) (θ : List (Option α)) (hθ : Fits S consts θ) (n : Nat) (w : Worker α)
    (hw : Good S consts w.st) :
    (Compatible S consts Z θ → ∃ w' data, dataAtOnce S Z θ n w = some (w', data) ∧ Good S consts w'.st ∧ w'.seed = w.seed ∧ data.length = S.roots.length ∧ (∀ d ∈ data, d.length = n) ∧
      Simulated S consts Z θ w.seed n w.clock w'.clock data) ∧
    (¬ Compatible S consts Z θ → dataAtOnce S Z θ n w = none) := by
  obtain ⟨s, h1, h2, h3⟩ := store_same S hS consts θ hθ w hw
  have hcongr := simulateAll_congr S.g Z w.seed n s.value (valuesOf S consts θ) S.roots (inputs_held S hS.toSound consts θ s h2 h3) w.clock
  obtain ⟨d1, d2⟩ := dataAt_spec S consts Z θ w.seed n w.clock
  unfold dataAt at d1 d2
  rw [← hcongr] at d1 d2
  unfold dataAtOnce
  rw [h1]
  simp only
  refine ⟨fun hc => ?_, fun hc => by rw [d2 hc]; rfl⟩
  obtain ⟨data, e1, e2⟩ := d1 hc
  refine ⟨⟨w.seed, s, (simulateAll S.g Z w.seed n s.value S.roots w.clock).1⟩, data, by rw [e1]; rfl, h2, rfl, e2.1, ?_, e2⟩
  intro d hd
  obtain ⟨m, hm, rfl⟩ := List.getElem_of_mem hd
  obtain ⟨hl, pos, -, -, hp⟩ := e2
  obtain ⟨e, -⟩ := hp m _ (List.getElem?_eq_getElem (by rw [← hl]; exact hm))
  rw [List.getElem?_eq_getElem hm, Option.some.injEq] at e
  rw [e]
  exact hZ _ _ _ _ _

/-- **C154** fails for a starting point (`iniPoint`) that a prior refuses: if entry `i` is the first that is refused, the likelihood of the starting point is that of data simulated with the entries before it and
with the values that the graph held before from there on. -/
theorem C154_refused_violated (S : Site α Y K) (hS : Plain S) (consts : Nat → Option α) (Z : Simulators α R) (ps : List α) (n : Nat) (w : Worker α) (hw : Good S consts w.st) (i : Nat)
    (hi : (setParameters S.g S.chk S.roots ps w.st).2 = .error (.rejected i)) (old : List (Option α)) (hold : Holds S w.st old) :
    i < old.length ∧ (Compatible S consts Z ((ps.take i).map some ++ old.drop i) → ∃ w' data, dataAtOnce S Z (ps.map some) n w = some (w', data) ∧
      Simulated S consts Z ((ps.take i).map some ++ old.drop i) w.seed n w.clock w'.clock data) := by
  have key := setParameters_eq S.g S.chk ps S.roots hS.apart w.st hw.clean
  cases ha : assignInOrder S.chk ps (order S.g S.roots) 0 w.st.value with
  | ok r => rw [ha] at key; rw [hi] at key; exact absurd key.1 (by simp)
  | error e =>
    rw [ha] at key
    obtain ⟨f, val⟩ := e
    cases f with
    | raised => rw [hi] at key; exact absurd key.1 (by simp)
    | rejected j =>
      simp only at key
      obtain ⟨k1, k2, k3⟩ := key
      rw [hi] at k1
      simp only [Except.error.injEq, SetFail.rejected.injEq] at k1
      subst k1
      obtain ⟨k, hk, hlt, a1, a2, -⟩ := assign_rejected S.chk ps _ 0 w.st.value val i (order_nodup _ _) ha
      rw [Nat.zero_add] at hk
      subst hk
      have hlen : old.length = (order S.g S.roots).length := by rw [← hold, List.length_map]
      refine ⟨by omega, fun hc => ?_⟩
      have hst : store S (ps.map some) w = some ⟨w.seed, (setParameters S.g S.chk S.roots ps w.st).1, w.clock⟩ := by
        unfold store
        rw [reduce_map_some]
        cases hsp : setParameters S.g S.chk S.roots ps w.st with
        | mk s r =>
          rw [hsp] at hi
          simp only at hi
          subst hi
          rfl
      have hgood : Good S consts (setParameters S.g S.chk S.roots ps w.st).1 := by
        refine ⟨k3, fun q hq => ?_⟩
        rw [k2, a2 q ?_]
        · exact hw.consts q hq
        · intro hm
          have := ((mem_order _ _ _).1 (List.mem_of_mem_take hm)).1
          rw [hq] at this
          cases this
      have hheld : Holds S (setParameters S.g S.chk S.roots ps w.st).1 ((ps.take i).map some ++ old.drop i) := by
        unfold Holds
        rw [k2, ← List.take_append_drop i (order S.g S.roots), List.map_append, a1, List.drop_zero, ← hold, ← List.map_drop]
        congr 1
        apply List.map_congr_left
        intro v hv
        apply a2
        intro hm
        have hnd := order_nodup S.g S.roots
        rw [← List.take_append_drop i (order S.g S.roots)] at hnd
        exact (List.nodup_append.1 hnd).2.2 v hm v hv rfl
      have hcongr := simulateAll_congr S.g Z w.seed n (setParameters S.g S.chk S.roots ps w.st).1.value _ S.roots (inputs_held S hS.toSound consts _ _ hgood hheld) w.clock
      obtain ⟨data, d1, d2⟩ := (dataAt_spec S consts Z ((ps.take i).map some ++ old.drop i) w.seed n w.clock).1 hc
      unfold dataAt at d1 d2
      rw [← hcongr] at d1 d2
      refine ⟨⟨w.seed, (setParameters S.g S.chk S.roots ps w.st).1, (simulateAll S.g Z w.seed n (setParameters S.g S.chk S.roots ps w.st).1.value S.roots w.clock).1⟩, data, ?_, d2⟩
      unfold dataAtOnce
      rw [hst]
      simp only
      rw [d1]
      rfl

/-! ### An instance -/

/-- The simulator returns its input plus the position in the stream. -/
def exSims : Simulators Int Int where
  check _ _ := true
  sim _ _ n inputs c := (c + n, (List.range n).map fun i => (inputs.headD none).getD 0 + ((c + i : ℕ) : Int))

/-- The hypotheses of the theorems hold: a parameter of 7 on a graph that held 5, and two samples for it. -/
example : Plain plain ∧ Counts exSims ∧ Fits plain (fun _ => none) [some 7] ∧ Compatible plain (fun _ => none) exSims [some 7] :=
  ⟨plain_plain, fun _ _ _ _ _ => by simp [exSims], plain_fits _ 7 (by decide), fun _ _ => rfl⟩

/-- A graph that holds 5. -/
def exHeld : Worker Int := ⟨0, ⟨fun _ => false, fun _ => false, fun v => if v = 1 then some 5 else none⟩, 0⟩

theorem exHeld_good : Good plain (fun _ => none) exHeld.st := by
  refine ⟨fun _ => rfl, fun q hq => ?_⟩
  have : q ≠ 1 := by rintro rfl; exact absurd hq (by simp [plain, lineG])
  simp [exHeld, this]

/-- The likelihood at 7 is that of data at 7; the likelihood at the starting point 150, outside of the support, is that of data at 5. -/
theorem C154_run :
    (∃ w, dataAtOnce plain exSims [some 7] 2 exHeld = some (w, [[7, 8]])) ∧ (∃ w, dataAtOnce plain exSims [some 150] 2 exHeld = some (w, [[5, 6]])) ∧
    (dataParallel plain exSims [some 7] [3, 4] none exHeld.st).2 = some [[7, 7]] := by
  have ho : order plain.g plain.roots = [1] := lineG_order
  have hr : plain.roots = [2] := rfl
  have hp : plain.g.parents 2 = [1] := rfl
  have hset : ∀ (x : Int) (st : St Int), Clean st → store plain [some x] ⟨0, st, 0⟩ = some ⟨0, (setParameters plain.g plain.chk plain.roots [x] st).1, 0⟩ ∧
      (setParameters plain.g plain.chk plain.roots [x] st).1.value 1 = if 0 ≤ x ∧ x ≤ 100 then some x else st.value 1 := by
    intro x st hst
    have key := setParameters_eq plain.g plain.chk [x] plain.roots plain_plain.apart st hst
    rw [ho] at key
    unfold store
    rw [show ([some x] : List (Option Int)).reduceOption = [x] from rfl]
    cases hsp : setParameters plain.g plain.chk plain.roots [x] st with
    | mk s r =>
      rw [hsp] at key
      by_cases hx : 0 ≤ x ∧ x ≤ 100
      · simp only [assignInOrder, List.getElem?_cons_zero, plain, hx, and_self, if_true] at key
        obtain ⟨k1, k2, -⟩ := key
        subst k1
        exact ⟨rfl, by simp [k2, hx]⟩
      · simp only [assignInOrder, List.getElem?_cons_zero, plain, hx, if_false] at key
        obtain ⟨k1, k2, -⟩ := key
        subst k1
        exact ⟨rfl, by simp [k2, hx]⟩
  have hone : ∀ (x : Int), ∃ w, dataAtOnce plain exSims [some x] 2 exHeld = some (w, [[if 0 ≤ x ∧ x ≤ 100 then x else 5, (if 0 ≤ x ∧ x ≤ 100 then x else 5) + 1]]) := by
    intro x
    obtain ⟨h1, h2⟩ := hset x exHeld.st exHeld_good.clean
    generalize setParameters plain.g plain.chk plain.roots [x] exHeld.st = sp at h1 h2
    refine ⟨⟨0, sp.1, 2⟩, ?_⟩
    unfold dataAtOnce
    rw [show exHeld = ⟨0, exHeld.st, 0⟩ from rfl, h1]
    have h5 : exHeld.st.value 1 = some 5 := rfl
    rw [h5] at h2
    simp only [hr, simulateAll, exSims, hp, List.map_cons, List.map_nil, h2, if_true, Option.map_some, Option.some.injEq, Prod.mk.injEq, true_and]
    split <;> simp [List.range_succ]
  refine ⟨?_, ?_, ?_⟩
  · simpa using hone 7
  · simpa using hone 150
  · obtain ⟨-, h, -⟩ := C154_parallel_partial plain plain_plain (fun _ => none) exSims (fun _ _ _ _ _ => by simp [exSims]) [some 7] (plain_fits _ 7 (by decide)) [3, 4] none (fun _ h => by cases h) exHeld.st exHeld_good
    obtain ⟨data, h1, h2, h3, h4⟩ := h fun _ _ => rfl
    obtain ⟨d, rfl⟩ : ∃ d, data = [d] := List.length_eq_one_iff.1 h2
    have hd := h3 d (by simp)
    obtain ⟨a, b, rfl⟩ : ∃ a b, d = [a, b] := List.length_eq_two.1 hd
    have hin : inputsAt plain (fun _ => none) [some 7] 2 = [some 7] := by
      simp [inputsAt, hp, valuesOf, ho]
    have hsim : ∀ seed c' (one : List (List Int)), Simulated plain (fun _ => none) exSims [some 7] seed 1 0 c' one → one[0]? = some [7] := by
      rintro seed c' one ⟨-, pos, p0, -, hp⟩
      obtain ⟨e, -⟩ := hp 0 2 rfl
      rw [e, hin, p0]
      simp [exSims]
    obtain ⟨one, c', o1, o2⟩ := h4 0 3 rfl
    obtain ⟨x, x1, x2⟩ := o2 0 _ rfl
    rw [hsim _ _ _ o1] at x2
    obtain ⟨one', c'', q1, q2⟩ := h4 1 4 rfl
    obtain ⟨y, y1, y2⟩ := q2 0 _ rfl
    rw [hsim _ _ _ q1] at y2
    simp at x1 x2 y1 y2
    rw [h1, x1, y1, ← x2, ← y2]

end Verif.Site
