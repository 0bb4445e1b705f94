import Verif.Nan.Apmc
import Verif.Rsmc.Props
/-
`RSMCABC` with distances that may be NaN or infinite: C198. Definitions are those of `Verif.Rsmc` with distances and thresholds that are numbers of floating-point arithmetic. What does not depend on distances is that
of `Verif.Rsmc`.
-/
namespace Verif.Nan.Rsmc

open Verif.Pmc (Pop)
open Verif.Smc (propose)
open Verif.Rsmc (Env Config Fail prob nextMoves)

variable {W Θ Y : Type}

/-- What a worker returns. -/
structure Out (Θ : Type) where
  θ : Θ
  d : Num
  accepted : Nat
  count : Nat

open Classical in
/-- Lines 2764-2768, as `Rsmc.priorLoop`: the loop goes on while `distance > epsilon`. -/
noncomputable def priorLoop (env : Env W Θ Y) (dist : Y → Num) (eps : Num) : Nat → W → Θ → Num → Nat → Option (Θ × Num × Nat)
  | 0, _, _, _, _ => none
  | fuel + 1, w, held, d, c =>
    if d.gt eps then
      let a := env.prior w
      let b := env.sim a.2 a.1
      priorLoop env dist eps fuel b.1 a.2 (dist b.2) (c + 1)
    else some (held, d, c)

open Classical in
/-- Lines 2775-2795, as `Rsmc.moveLoop`. -/
noncomputable def moveLoop (env : Env W Θ Y) (dist : Y → Num) (fuel : Nat) (eps : Num) (p : Pop Θ) (i : Nat) (θ : Θ) (dθ : Num) : Nat → W → Θ → Num → Nat → Nat → Option (Out Θ)
  | 0, _, held, d, acc, c => some ⟨held, d, acc, c⟩
  | r + 1, w, _, _, acc, c =>
    match propose env.pdf (env.perturb p i) fuel w with
    | none => none
    | some (w, θ') =>
      let b := env.sim θ' w
      let u := env.bern (prob env p θ θ') b.1
      if (dist b.2).lt eps then
        if u.2 then moveLoop env dist fuel eps p i θ dθ r u.1 θ (dist b.2) (acc + 1) (c + 1)
        else moveLoop env dist fuel eps p i θ dθ r u.1 θ dθ acc (c + 1)
      else moveLoop env dist fuel eps p i θ dθ r b.1 θ dθ acc (c + 1)

/-- `dist_max()`. -/
def distMax (env : Env W Θ Y) : Num := env.distMax.elim .inf .num

/-- `_accept_parameter`, lines 2739-2797, as `Rsmc.accept`. -/
noncomputable def accept (env : Env W Θ Y) (dist : Y → Num) (fuel : Nat) (eps : Num) (pop : Option (Pop Θ × List Num)) (r : Nat) (w : W) (held : Θ) : Option (Out Θ) :=
  match pop with
  | none => (priorLoop env dist eps fuel w held (distMax env) 0).map fun e => ⟨e.1, e.2.1, 1, e.2.2⟩
  | some (p, ds) =>
    let i := env.choose p.params.length w
    (p.params[i.2]?).bind fun θ => (ds[i.2]?).bind fun dθ => moveLoop env dist fuel eps p i.2 θ dθ r i.1 held (distMax env) 0 0

structure Rec (Θ : Type) where
  eps : Num
  moves : Int
  params : List Θ
  distances : List Num

structure State (Θ : Type) where
  epsilons : List Num
  kept : Option (List Θ × List Num)
  moves : Int
  hist : List (Rec Θ)
  journal : List (Rec Θ)
  counter : Nat

/-- Python's `sorted(l, key=lambda x: x[0])` for lists whose keys may be NaN. The order of such a list is not documented; what is used is that the result has the same entries, that a list in which no entry is
smaller than the one before it is left as it is (CPython's `list.sort` looks for such a run first), and that a list of numbers is sorted, entries of the same size in their order. -/
structure Sorts (sort : List (Num × Θ) → List (Num × Θ)) : Prop where
  perm : ∀ l, (sort l).Perm l
  same : ∀ l, List.IsChain (fun a b => ¬ b.1.lt a.1) l → sort l = l
  numbers : ∀ l : List (ℝ × Θ), sort (l.map fun e => (.num e.1, e.2)) = (l.insertionSort fun a b => a.1 ≤ b.1).map fun e => (.num e.1, e.2)

/-- Lines 2703-2714. -/
noncomputable def trim (sort : List (Num × Θ) → List (Num × Θ)) (c : Config) (params : List Θ) (distances : List Num) : List Θ × List Num :=
  let s := sort (distances.zip params)
  ((s.map Prod.snd).take (c.n - c.drop), (s.map Prod.fst).take (c.n - c.drop))

/-- Lines 2617-2626. -/
def threshold (c : Config) (s : State Θ) : Option Num :=
  match s.kept with
  | none => some (.num c.epsInit)
  | some k => k.2.getLast?

noncomputable def wanted (c : Config) (s : State Θ) : Nat := if s.kept.isNone then c.n else c.drop

noncomputable def seen (s : State Θ) : Option (Pop Θ × List Num) := s.kept.map fun k => (⟨k.1, List.replicate k.1.length (1 / k.1.length)⟩, k.2)

def base (c : Config) (s : State Θ) (new : Nat) : List Θ × List Num := if new = c.n then ([], []) else s.kept.getD ([], [])

open Classical in
/-- Iteration `t`, lines 2590-2719, as `Rsmc.step`. -/
noncomputable def step (env : Env W Θ Y) (dist : Y → Num) (sort : List (Num × Θ) → List (Num × Θ)) (c : Config) (fuel t : Nat) (start : List (W × Θ)) (s : State Θ) : Except Fail (State Θ) :=
  match threshold c s with
  | none => .error .other
  | some eps =>
    if eps.lt (.num c.epsFinal) then .error .stopping
    else if start.length ≠ wanted c s ∨ start = [] then .error .other
    else
      match collect (start.map fun e => accept env dist fuel eps (seen s) s.moves.toNat e.1 e.2) with
      | none => .error .other
      | some out => match nextMoves c s.moves start.length (out.map Out.accepted).sum with
        | none => .error .other
        | some moves =>
          let r : Rec Θ := ⟨eps, s.moves, (base c s out.length).1 ++ out.map Out.θ, (base c s out.length).2 ++ out.map Out.d⟩
          .ok ⟨s.epsilons ++ [eps], some (trim sort c r.params r.distances), moves, s.hist ++ [r],
            if c.full then s.journal ++ [r] else if t = c.steps - 1 then [r] else s.journal, s.counter + (out.map Out.count).sum⟩

noncomputable def loop (env : Env W Θ Y) (dist : Y → Num) (sort : List (Num × Θ) → List (Num × Θ)) (c : Config) (fuel : Nat) (start : Nat → List (W × Θ)) : Nat → Nat → State Θ → Except Fail (State Θ)
  | 0, _, s => .ok s
  | k + 1, t, s => match step env dist sort c fuel t (start t) s with
    | .error e => .error e
    | .ok s => loop env dist sort c fuel start k (t + 1) s

/-- `RSMCABC.sample` without a journal file, on a sampler that has not been used before. -/
noncomputable def run (env : Env W Θ Y) (dist : Y → Num) (sort : List (Num × Θ) → List (Num × Θ)) (c : Config) (fuel : Nat) (start : Nat → List (W × Θ)) : Except Fail (State Θ) :=
  loop env dist sort c fuel start c.steps 0 ⟨[], none, 1, [], [], 0⟩

/-! ### C198: what happens with a NaN -/

/-- C198 fails in the first population: if the first simulation has a NaN, the worker returns it at once, whatever the threshold is. -/
theorem C198_first_violated (env : Env W Θ Y) (dist : Y → Num) (fuel : Nat) (eps : Num) (r : Nat) (w : W) (held : Θ) (hm : (distMax env).gt eps)
    (hd : dist (env.sim (env.prior w).2 (env.prior w).1).2 = .nan) : accept env dist (fuel + 2) eps none r w held = some ⟨(env.prior w).2, .nan, 1, 1⟩ := by
  have : ¬ Num.nan.gt eps := by cases eps <;> exact id
  rw [accept, priorLoop, if_pos hm]
  simp only [priorLoop]
  rw [if_neg (by rw [hd]; exact this), hd]
  rfl

/-- C198 holds for the moves: what a worker returns has a NaN only if the particle it started from has one. After at least one move the distance is that of the particle it started from, or
that of simulated data below the threshold; the parameters are in both cases those it started from (C47). If it counts a move as accepted, there was such a simulation. -/
theorem C198_move (env : Env W Θ Y) (dist : Y → Num) (fuel : Nat) (eps : Num) (p : Pop Θ) (i : Nat) (θ : Θ) (dθ : Num) (hθ : dθ ≠ .nan) (r : Nat) : ∀ (w : W) (held : Θ) (d : Num) (acc c : Nat) (o : Out Θ),
    (r = 0 → d ≠ .nan) → moveLoop env dist fuel eps p i θ dθ r w held d acc c = some o → o.d ≠ .nan ∧ (r ≠ 0 → o.θ = θ ∧ (o.d = dθ ∨ (o.d.lt eps ∧ ∃ w' θ', o.d = dist (env.sim θ' w').2))) ∧
      (acc < o.accepted → ∃ w θ', (dist (env.sim θ' w).2).lt eps) := by
  induction r with
  | zero =>
    intro w held d acc c o hd h
    cases h
    exact ⟨hd rfl, fun h => absurd rfl h, fun h => absurd h (lt_irrefl _)⟩
  | succ r ih =>
    intro w held d acc c o _ h
    rw [moveLoop] at h
    split at h
    · cases h
    · rename_i w' θ' hp
      simp only at h
      have kept : ∀ {w held c}, moveLoop env dist fuel eps p i θ dθ r w θ dθ acc c = some o → held = θ → o.θ = θ ∧ (o.d = dθ ∨ (o.d.lt eps ∧ ∃ w' θ', o.d = dist (env.sim θ' w').2)) := by
        intro w held c h _
        cases r with
        | zero => cases h; exact ⟨rfl, .inl rfl⟩
        | succ r => exact (ih _ _ _ _ _ _ (fun _ => hθ) h).2.1 (Nat.succ_ne_zero r)
      split at h
      · rename_i hlt
        have hn : dist (env.sim θ' w').2 ≠ .nan := by intro hn; rw [hn] at hlt; exact hlt
        split at h
        · refine ⟨(ih _ _ _ _ _ _ (fun _ => hn) h).1, fun _ => ?_, fun _ => ⟨_, _, hlt⟩⟩
          cases r with
          | zero => cases h; exact ⟨rfl, .inr ⟨hlt, _, _, rfl⟩⟩
          | succ r => exact (ih _ _ _ _ _ _ (fun _ => hn) h).2.1 (Nat.succ_ne_zero r)
        · have := ih _ _ _ _ _ _ (fun _ => hθ) h
          exact ⟨this.1, fun _ => kept h rfl, this.2.2⟩
      · have := ih _ _ _ _ _ _ (fun _ => hθ) h
        exact ⟨this.1, fun _ => kept h rfl, this.2.2⟩

/-- With a NaN as threshold no move is accepted: the particle keeps its parameters and its distance. -/
theorem move_nan (env : Env W Θ Y) (dist : Y → Num) (fuel : Nat) (p : Pop Θ) (i : Nat) (θ : Θ) (dθ : Num) (r : Nat) : ∀ (w : W) (held : Θ) (d : Num) (acc c : Nat) (o : Out Θ),
    moveLoop env dist fuel .nan p i θ dθ r w held d acc c = some o → o.accepted = acc ∧ (r ≠ 0 → o.θ = θ ∧ o.d = dθ) ∧ o.count = c + r := by
  induction r with
  | zero => intro w held d acc c o h; cases h; exact ⟨rfl, fun h => absurd rfl h, rfl⟩
  | succ r ih =>
    intro w held d acc c o h
    rw [moveLoop] at h
    split at h
    · cases h
    · rename_i w' θ' hp
      simp only at h
      have hf : ¬ (dist (env.sim θ' w').2).lt .nan := by cases dist (env.sim θ' w').2 <;> exact id
      rw [if_neg hf] at h
      obtain ⟨h1, h2, h3⟩ := ih _ _ _ _ _ _ h
      refine ⟨h1, fun _ => ?_, by rw [h3]; ring⟩
      cases r with
      | zero => cases h; exact ⟨rfl, rfl⟩
      | succ r => exact h2 (by omega)

/-- What a step gives. -/
theorem step_eq (env : Env W Θ Y) (dist : Y → Num) (sort : List (Num × Θ) → List (Num × Θ)) (c : Config) (fuel t : Nat) (start : List (W × Θ)) (s s' : State Θ)
    (h : step env dist sort c fuel t start s = .ok s') : ∃ (eps : Num) (out : List (Out Θ)) (moves : Int) (r : Rec Θ), threshold c s = some eps ∧ start.length = wanted c s ∧ start ≠ [] ∧
      collect (start.map fun e => accept env dist fuel eps (seen s) s.moves.toNat e.1 e.2) = some out ∧ nextMoves c s.moves start.length (out.map Out.accepted).sum = some moves ∧
      r = ⟨eps, s.moves, (base c s out.length).1 ++ out.map Out.θ, (base c s out.length).2 ++ out.map Out.d⟩ ∧ s'.epsilons = s.epsilons ++ [eps] ∧ s'.kept = some (trim sort c r.params r.distances) ∧
      s'.moves = moves ∧ s'.hist = s.hist ++ [r] := by
  unfold step at h
  split at h
  · cases h
  · rename_i eps heps
    split at h
    · cases h
    · split at h
      · cases h
      · rename_i hl
        split at h
        · cases h
        · rename_i out ho
          split at h
          · cases h
          · rename_i moves hm
            cases h
            exact ⟨eps, out, moves, _, heps, not_not.1 (not_or.1 hl).1, (not_or.1 hl).2, ho, hm, rfl, rfl, rfl, rfl, rfl⟩

/-- All particles have a NaN. -/
def Spoiled (s : State Θ) : Prop := s.moves = 1 ∧ ∃ ps ds, s.kept = some (ps, ds) ∧ ds ≠ [] ∧ (∀ d ∈ ds, d = .nan) ∧ ps.length = ds.length

theorem zip_spoiled (sort : List (Num × Θ) → List (Num × Θ)) (hs : Sorts sort) (c : Config) (params : List Θ) (distances : List Num) (hd : ∀ d ∈ distances, d = .nan) (hl : params.length = distances.length) :
    trim sort c params distances = (params.take (c.n - c.drop), distances.take (c.n - c.drop)) := by
  have hsame : sort (distances.zip params) = distances.zip params := by
    refine hs.same _ (List.Pairwise.isChain ?_)
    rw [List.pairwise_iff_forall_sublist]
    intro a b hab hlt
    have hb : b ∈ distances.zip params := hab.subset (by simp)
    have ha := hd b.1 (List.of_mem_zip hb).1
    rw [ha] at hlt
    exact hlt
  unfold trim
  simp only [hsame]
  rw [List.map_snd_zip (by omega), List.map_fst_zip (by omega)]

/-- C198 fails for whole runs: once all particles that are kept have a NaN, the threshold is NaN, every later step generates copies of these particles without accepting a single move, the check for the final threshold
is never met, and every later population is spoiled in the same way. -/
theorem C198_step_violated (env : Env W Θ Y) (dist : Y → Num) (sort : List (Num × Θ) → List (Num × Θ)) (hs : Sorts sort) (c : Config) (hc : c.drop < c.n) (fuel t : Nat) (start : List (W × Θ)) (s s' : State Θ)
    (hsp : Spoiled s) (h : step env dist sort c fuel t start s = .ok s') :
    Spoiled s' ∧ ∃ r, s'.hist = s.hist ++ [r] ∧ r.eps = .nan ∧ (∀ d ∈ r.distances, d = .nan) ∧ ∀ θ ∈ r.params, ∀ ps ds, s.kept = some (ps, ds) → θ ∈ ps := by
  obtain ⟨hm, ps, ds, hk, hne, hnan, hlen⟩ := hsp
  obtain ⟨eps, out, moves, r, h1, h2, h3, h4, h5, rfl, h7, h8, h9, h10⟩ := step_eq env dist sort c fuel t start s s' h
  have he : eps = .nan := by
    unfold threshold at h1
    rw [hk] at h1
    exact hnan _ (List.mem_of_getLast? h1)
  subst he
  have hout : ∀ o ∈ out, o.accepted = 0 ∧ o.θ ∈ ps ∧ o.d = .nan := by
    intro o ho
    have : some o ∈ out.map some := List.mem_map_of_mem ho
    rw [← (collect_eq_some _ _).1 h4] at this
    obtain ⟨e, -, he⟩ := List.mem_map.1 this
    unfold accept seen at he
    rw [hk] at he
    simp only [Option.map_some] at he
    obtain ⟨θ, hθ, he⟩ := Option.bind_eq_some_iff.1 he
    obtain ⟨dθ, hdθ, he⟩ := Option.bind_eq_some_iff.1 he
    obtain ⟨a1, a2, -⟩ := move_nan env dist fuel _ _ θ dθ _ _ _ _ _ _ o he
    obtain ⟨a3, a4⟩ := a2 (by rw [hm]; decide)
    exact ⟨a1, by rw [a3]; exact List.mem_of_getElem? hθ, by rw [a4]; exact hnan _ (List.mem_of_getElem? hdθ)⟩
  have hsum : (out.map Out.accepted).sum = 0 := by
    rw [List.sum_eq_zero_iff]
    intro a ha
    obtain ⟨o, ho, rfl⟩ := List.mem_map.1 ha
    exact (hout o ho).1
  have hmv : moves = 1 := by
    rw [hsum, hm] at h5
    unfold nextMoves at h5
    simp only [Nat.cast_zero, zero_div, or_true, if_true] at h5
    split at h5
    · cases h5
    · cases h5; rfl
  have hol : out.length = start.length := by
    have := congrArg List.length ((collect_eq_some _ _).1 h4)
    simpa using this.symm
  have hw : start.length = c.drop := by
    rw [h2, wanted, hk]; rfl
  have hbase : base c s out.length = (ps, ds) := by
    unfold base
    rw [if_neg (by omega), hk]; rfl
  rw [hbase] at h8 h10
  have hd : ∀ d ∈ ds ++ out.map Out.d, d = .nan := by
    intro d hd
    rcases List.mem_append.1 hd with hd | hd
    · exact hnan d hd
    · obtain ⟨o, ho, rfl⟩ := List.mem_map.1 hd
      exact (hout o ho).2.2
  have hl : (ps ++ out.map Out.θ).length = (ds ++ out.map Out.d).length := by simp [hlen]
  rw [zip_spoiled sort hs c _ _ hd hl] at h8
  refine ⟨⟨by rw [h9, hmv], _, _, h8, ?_, ?_, ?_⟩, _, h10, rfl, hd, ?_⟩
  · intro hnil
    rw [List.take_eq_nil_iff] at hnil
    rcases hnil with h0 | h0
    · omega
    · exact hne (List.append_eq_nil_iff.1 h0).1
  · exact fun d hd' => hd d (List.mem_of_mem_take hd')
  · rw [List.length_take, List.length_take, hl]
  · intro θ hθ ps' ds' hk'
    rw [hk] at hk'
    cases hk'
    rcases List.mem_append.1 hθ with hθ | hθ
    · exact hθ
    · obtain ⟨o, ho, rfl⟩ := List.mem_map.1 hθ
      exact (hout o ho).2.1

theorem loop_spoiled (env : Env W Θ Y) (dist : Y → Num) (sort : List (Num × Θ) → List (Num × Θ)) (hs : Sorts sort) (c : Config) (hc : c.drop < c.n) (fuel : Nat) (start : Nat → List (W × Θ)) (k : Nat) :
    ∀ (t : Nat) (s s' : State Θ), Spoiled s → loop env dist sort c fuel start k t s = .ok s' → Spoiled s' ∧ ∃ l, s'.hist = s.hist ++ l ∧ l.length = k ∧ ∀ r ∈ l, r.eps = .nan ∧ ∀ d ∈ r.distances, d = .nan := by
  induction k with
  | zero => intro t s s' hsp h; cases h; exact ⟨hsp, [], by simp, rfl, by simp⟩
  | succ k ih =>
    intro t s s' hsp h
    rw [loop] at h
    split at h
    · cases h
    · rename_i s1 h1
      obtain ⟨hsp1, r, hr, hr1, hr2, -⟩ := C198_step_violated env dist sort hs c hc fuel t (start t) s s1 hsp h1
      obtain ⟨hsp', l, hl, hlen, hall⟩ := ih (t + 1) s1 s' hsp1 h
      refine ⟨hsp', r :: l, by rw [hl, hr, List.append_assoc]; rfl, by simp [hlen], ?_⟩
      intro r' hr'
      rcases List.mem_cons.1 hr' with rfl | hr'
      · exact ⟨hr1, hr2⟩
      · exact hall r' hr'

/-- C198 fails for whole runs: with two particles, one of which is replaced in every step, a NaN of the first one is enough. The second particle is thrown away whatever its distance is; all later populations, for any number of
steps, consist of particles with a NaN and have a NaN as threshold. -/
theorem C198_run_violated (env : Env W Θ Y) (dist : Y → Num) (sort : List (Num × Θ) → List (Num × Θ)) (hs : Sorts sort) (c : Config) (hn : c.n = 2) (hc : c.drop = 1) (fuel : Nat)
    (start : Nat → List (W × Θ)) (hsteps : 0 < c.steps) (w w2 : W) (held held2 : Θ) (hst : start 0 = [(w, held), (w2, held2)]) (hm : (distMax env).gt (.num c.epsInit))
    (hd : dist (env.sim (env.prior w).2 (env.prior w).1).2 = .nan) (s : State Θ) (h : run env dist sort c (fuel + 2) start = .ok s) :
    ∃ r l, s.hist = r :: l ∧ r.params[0]? = some (env.prior w).2 ∧ l.length = c.steps - 1 ∧ ∀ r' ∈ l, r'.eps = .nan ∧ ∀ d ∈ r'.distances, d = .nan := by
  obtain ⟨k, hk⟩ : ∃ k, c.steps = k + 1 := ⟨c.steps - 1, by omega⟩
  unfold run at h
  rw [hk, loop] at h
  split at h
  · cases h
  · rename_i s1 h1
    obtain ⟨eps, out, moves, r, g1, g2, g3, g4, g5, rfl, g7, g8, g9, g10⟩ := step_eq env dist sort c (fuel + 2) 0 (start 0) _ s1 h1
    cases g1
    rw [hst] at g4 g5
    simp only [seen, Option.map_none, List.map_cons, List.map_nil, C198_first_violated env dist fuel (.num c.epsInit) _ w held hm hd] at g4
    replace g4 := (collect_eq_some _ _).1 g4
    rcases out with _ | ⟨o1, _ | ⟨o2, _ | ⟨o3, out⟩⟩⟩
    · simp at g4
    · simp at g4
    swap
    · simp at g4
    simp only [List.map_cons, List.map_nil, List.cons.injEq, Option.some.injEq, and_true] at g4
    obtain ⟨rfl, g4⟩ := g4
    have ho2 : o2.accepted = 1 := by
      simp only [accept] at g4
      obtain ⟨e, -, rfl⟩ := Option.map_eq_some_iff.1 g4
      rfl
    have hmv : s1.moves = 1 := by
      rw [g9]
      simp only [List.map_cons, List.map_nil, List.sum_cons, List.sum_nil, ho2, List.length_cons, List.length_nil] at g5
      unfold nextMoves at g5
      norm_num at g5
      exact g5.symm
    have hb : base c (⟨[], none, 1, [], [], 0⟩ : State Θ) 2 = ([], []) := by unfold base; rw [if_pos hn.symm]
    have htr : trim sort c [(env.prior w).2, o2.θ] [.nan, o2.d] = ([(env.prior w).2], [.nan]) := by
      have : sort [(.nan, (env.prior w).2), (o2.d, o2.θ)] = [(.nan, (env.prior w).2), (o2.d, o2.θ)] := by
        refine hs.same _ ?_
        simp only [List.isChain_cons_cons, List.isChain_singleton, and_true]
        cases o2.d <;> exact id
      simp [trim, this, hn, hc]
    simp only [List.length_cons, List.length_nil, List.map_cons, List.map_nil, Nat.zero_add, Nat.reduceAdd, hb, List.nil_append] at g8 g10
    rw [htr] at g8
    obtain ⟨-, l, hl, hlen, hall⟩ := loop_spoiled env dist sort hs c (by omega) (fuel + 2) start k 1 s1 s ⟨hmv, _, _, g8, by simp, by simp, rfl⟩ h
    rw [g10] at hl
    exact ⟨_, l, hl, rfl, by omega, hall⟩

/-! ### Distances that are numbers -/

def Out.of (o : Verif.Rsmc.Out Θ) : Out Θ := ⟨o.θ, o.d.elim .inf .num, o.accepted, o.count⟩

def Rec.of (r : Verif.Rsmc.Rec Θ) : Rec Θ := ⟨.num r.eps, r.moves, r.params, r.distances.map .num⟩

def State.of (s : Verif.Rsmc.State Θ) : State Θ := ⟨s.epsilons.map .num, s.kept.map fun k => (k.1, k.2.map .num), s.moves, s.hist.map Rec.of, s.journal.map Rec.of, s.counter⟩

theorem above_of (d : Option ℝ) (eps : ℝ) : (d.elim Num.inf .num).gt (.num eps) ↔ Verif.Pmc.above d eps = true := by
  cases d with
  | none => simp [Num.gt, Num.lt, Verif.Pmc.above]
  | some d => simp [Num.gt, Num.lt, Verif.Pmc.above]

theorem priorLoop_of (env : Env W Θ Y) (eps : ℝ) (fuel : Nat) : ∀ (w : W) (held : Θ) (d : Option ℝ) (c : Nat),
    priorLoop env (fun y => .num (env.dist y)) (.num eps) fuel w held (d.elim .inf .num) c = (Verif.Rsmc.priorLoop env eps fuel w held d c).map fun e => (e.1, e.2.1.elim .inf .num, e.2.2) := by
  induction fuel with
  | zero => intros; rfl
  | succ fuel ih =>
    intro w held d c
    rw [priorLoop, Verif.Rsmc.priorLoop]
    by_cases h : Verif.Pmc.above d eps = true
    · rw [if_pos ((above_of d eps).2 h), if_pos h]
      exact ih _ _ (some _) _
    · rw [if_neg (fun hh => h ((above_of d eps).1 hh)), if_neg h]; rfl

theorem moveLoop_of (env : Env W Θ Y) (fuel : Nat) (eps : ℝ) (p : Pop Θ) (i : Nat) (θ : Θ) (dθ : ℝ) (r : Nat) : ∀ (w : W) (held : Θ) (d : Option ℝ) (acc c : Nat),
    moveLoop env (fun y => .num (env.dist y)) fuel (.num eps) p i θ (.num dθ) r w held (d.elim .inf .num) acc c = (Verif.Rsmc.moveLoop env fuel eps p i θ dθ r w held d acc c).map Out.of := by
  induction r with
  | zero => intros; rfl
  | succ r ih =>
    intro w held d acc c
    rw [moveLoop, Verif.Rsmc.moveLoop]
    cases propose env.pdf (env.perturb p i) fuel w with
    | none => rfl
    | some e =>
      simp only
      by_cases h : env.dist (env.sim e.2 e.1).2 < eps
      · rw [if_pos ((lt_num _ _).2 h), if_pos h]
        cases (env.bern (prob env p θ e.2) (env.sim e.2 e.1).1).2 with
        | true => exact ih _ _ (some _) _ _
        | false => exact ih _ _ (some _) _ _
      · rw [if_neg (fun hh => h ((lt_num _ _).1 hh)), if_neg h]
        exact ih _ _ (some _) _ _

theorem accept_of (env : Env W Θ Y) (fuel : Nat) (eps : ℝ) (pop : Option (Pop Θ × List ℝ)) (r : Nat) (w : W) (held : Θ) :
    accept env (fun y => .num (env.dist y)) fuel (.num eps) (pop.map fun q => (q.1, q.2.map .num)) r w held = (Verif.Rsmc.accept env fuel eps pop r w held).map Out.of := by
  unfold accept Verif.Rsmc.accept
  cases pop with
  | none =>
    simp only [Option.map_none, distMax, priorLoop_of, Option.map_map]
    rfl
  | some q =>
    simp only [Option.map_some, List.getElem?_map, distMax]
    cases q.1.params[(env.choose q.1.params.length w).2]? with
    | none => rfl
    | some θ =>
      cases q.2[(env.choose q.1.params.length w).2]? with
      | none => rfl
      | some dθ => simp only [Option.map_some, Option.bind_some, moveLoop_of]

theorem trim_of (sort : List (Num × Θ) → List (Num × Θ)) (hs : Sorts sort) (c : Config) (params : List Θ) (distances : List ℝ) :
    trim sort c params (distances.map .num) = ((Verif.Rsmc.trim c params distances).1, (Verif.Rsmc.trim c params distances).2.map .num) := by
  unfold trim Verif.Rsmc.trim
  have : (distances.map Num.num).zip params = (distances.zip params).map fun e => (.num e.1, e.2) := by
    rw [List.zip_map_left]
    rfl
  simp only [this, hs.numbers, List.map_map, List.map_take]
  rfl

theorem step_of (env : Env W Θ Y) (sort : List (Num × Θ) → List (Num × Θ)) (hs : Sorts sort) (c : Config) (fuel t : Nat) (start : List (W × Θ)) (s s' : Verif.Rsmc.State Θ)
    (h : Verif.Rsmc.step env c fuel t start s = .ok s') : step env (fun y => .num (env.dist y)) sort c fuel t start (State.of s) = .ok (State.of s') := by
  unfold Verif.Rsmc.step at h
  have hthr : threshold c (State.of s) = (Verif.Rsmc.threshold c s).map .num := by
    unfold threshold Verif.Rsmc.threshold State.of
    cases s.kept with
    | none => rfl
    | some k => simp
  have hw : wanted c (State.of s) = Verif.Rsmc.wanted c s := by
    unfold wanted Verif.Rsmc.wanted State.of
    cases s.kept <;> rfl
  have hseen : seen (State.of s) = (Verif.Rsmc.seen s).map fun q => (q.1, q.2.map .num) := by
    unfold seen Verif.Rsmc.seen State.of
    cases s.kept <;> rfl
  have hbase : ∀ k, base c (State.of s) k = ((Verif.Rsmc.base c s k).1, (Verif.Rsmc.base c s k).2.map .num) := by
    intro k
    unfold base Verif.Rsmc.base
    by_cases hk : k = c.n
    · rw [if_pos hk, if_pos hk]; rfl
    · rw [if_neg hk, if_neg hk]
      unfold State.of
      cases s.kept <;> rfl
  split at h
  · cases h
  · rename_i eps heps
    split at h
    · cases h
    · rename_i hfin
      split at h
      · cases h
      · rename_i hl
        split at h
        · cases h
        · rename_i out ho
          split at h
          · cases h
          · rename_i ds hds
            split at h
            · cases h
            · rename_i moves hmv
              cases h
              have hds := (collect_eq_some _ _).1 hds
              have hd : (out.map Out.of).map Out.d = ds.map .num := by
                have : (out.map Out.of).map Out.d = (out.map Verif.Rsmc.Out.d).map fun d => d.elim .inf .num := by rw [List.map_map, List.map_map]; rfl
                rw [this, hds, List.map_map]; rfl
              have hc : collect (start.map fun e => accept env (fun y => .num (env.dist y)) fuel (.num eps) (seen (State.of s)) (State.of s).moves.toNat e.1 e.2) = some (out.map Out.of) := by
                rw [hseen]
                have e1 : (start.map fun e => accept env (fun y => .num (env.dist y)) fuel (.num eps) ((Verif.Rsmc.seen s).map fun q => (q.1, q.2.map .num)) (State.of s).moves.toNat e.1 e.2) =
                    (start.map fun e => Verif.Rsmc.accept env fuel eps (Verif.Rsmc.seen s) s.moves.toNat e.1 e.2).map fun o => o.map Out.of := by
                  rw [List.map_map]
                  exact List.map_congr_left fun e _ => accept_of env fuel eps _ _ _ _
                rw [e1, Apmc.collect_map, ho]
                rfl
              unfold step
              rw [hthr, heps]
              simp only [Option.map_some]
              rw [if_neg (fun hh => hfin ((lt_num _ _).1 hh)), hw, if_neg hl, hc]
              have hacc : ((out.map Out.of).map Out.accepted).sum = (out.map Verif.Rsmc.Out.accepted).sum := by rw [List.map_map]; rfl
              have hcnt : ((out.map Out.of).map Out.count).sum = (out.map Verif.Rsmc.Out.count).sum := by rw [List.map_map]; rfl
              have hth : (out.map Out.of).map Out.θ = out.map Verif.Rsmc.Out.θ := by rw [List.map_map]; rfl
              have hms : (State.of s).moves = s.moves := rfl
              simp only [hacc, hms, hmv, hbase, List.length_map, hth, hd, hcnt, ← List.map_append, trim_of sort hs]
              congr 1
              unfold State.of
              simp only [List.map_append, List.map_cons, List.map_nil]
              congr 1
              · simp [Rec.of]
              · by_cases hf : c.full = true
                · rw [if_pos hf, if_pos hf]; simp [Rec.of]
                · rw [if_neg hf, if_neg hf]
                  by_cases ht : t = c.steps - 1
                  · rw [if_pos ht, if_pos ht]; simp [Rec.of]
                  · rw [if_neg ht, if_neg ht]

theorem loop_of (env : Env W Θ Y) (sort : List (Num × Θ) → List (Num × Θ)) (hs : Sorts sort) (c : Config) (fuel : Nat) (start : Nat → List (W × Θ)) (k : Nat) : ∀ (t : Nat) (s s' : Verif.Rsmc.State Θ),
    Verif.Rsmc.loop env c fuel start k t s = .ok s' → loop env (fun y => .num (env.dist y)) sort c fuel start k t (State.of s) = .ok (State.of s') := by
  induction k with
  | zero => intro t s s' h; cases h; rfl
  | succ k ih =>
    intro t s s' h
    rw [Verif.Rsmc.loop] at h
    split at h
    · cases h
    · rename_i s1 h1
      rw [loop, step_of env sort hs c fuel t (start t) s s1 h1]
      exact ih _ _ _ h

/-- C198 for distances that are numbers: a run of `Verif.Rsmc` that ends is the run here. Missing: distances that are NaN, see the theorems above. -/
theorem C198_partial (env : Env W Θ Y) (dist : Y → Num) (sort : List (Num × Θ) → List (Num × Θ)) (hs : Sorts sort) (c : Config) (fuel : Nat) (start : Nat → List (W × Θ)) (hd : ∀ y, dist y = .num (env.dist y))
    (s : Verif.Rsmc.State Θ) (h : Verif.Rsmc.run env c fuel start = .ok s) : run env dist sort c fuel start = .ok (State.of s) := by
  obtain rfl : dist = fun y => .num (env.dist y) := funext hd
  exact loop_of env sort hs c fuel start _ 0 ⟨[], none, 1, [], [], 0⟩ s h

/-! ### A run -/

open Classical in
/-- A function that `Sorts` allows. -/
noncomputable def exSort (l : List (Num × ℝ)) : List (Num × ℝ) :=
  if h : ∃ m : List (ℝ × ℝ), l = m.map fun e => (.num e.1, e.2) then (h.choose.insertionSort fun a b => a.1 ≤ b.1).map fun e => (.num e.1, e.2) else l

theorem exSort_sorts : Sorts exSort where
  perm l := by
    unfold exSort
    split
    · rename_i h
      conv_rhs => rw [h.choose_spec]
      exact (List.perm_insertionSort _ _).map _
    · exact List.Perm.refl _
  same l hl := by
    unfold exSort
    split
    · rename_i h
      have hs : h.choose.insertionSort (fun a b => a.1 ≤ b.1) = h.choose := by
        refine List.Pairwise.insertionSort_eq ?_
        have hl' := hl
        rw [h.choose_spec, List.isChain_map] at hl'
        have hch : List.IsChain (fun a b : ℝ × ℝ => a.1 ≤ b.1) h.choose := hl'.imp fun a b hab => not_lt.1 hab
        haveI : IsTrans (ℝ × ℝ) (fun a b => a.1 ≤ b.1) := ⟨fun _ _ _ h1 h2 => le_trans h1 h2⟩
        exact List.isChain_iff_pairwise.1 hch
      rw [hs]
      exact h.choose_spec.symm
    · rfl
  numbers l := by
    have h : ∃ m : List (ℝ × ℝ), (l.map fun e => ((Num.num e.1, e.2) : Num × ℝ)) = m.map fun e => (.num e.1, e.2) := ⟨l, rfl⟩
    unfold exSort
    rw [dif_pos h]
    have : h.choose = l := by
      have := h.choose_spec
      refine (List.map_injective_iff.2 ?_ this).symm
      rintro ⟨a, b⟩ ⟨c, d⟩ hab
      simp only [Prod.mk.injEq, Num.num.injEq] at hab
      exact Prod.ext hab.1 hab.2
    rw [this]

/-- The state of a worker is the next value drawn from the prior; data are the value itself. -/
noncomputable def exEnv : Env ℝ ℝ ℝ where
  distMax := none
  dist y := y
  pdf _ := 1
  kernel _ _ _ := 1
  prior w := (w, w)
  choose _ w := (w, 0)
  perturb p i w := (w, (p.params[i]?).map (· / 2))
  sim θ w := (w, θ)
  bern _ w := (w, true)

open Classical in
noncomputable def exDist (y : ℝ) : Num := if 4 < y then .nan else .num y

/-- The first particle is 5, the second one 0. -/
def exStart (t : Nat) : List (ℝ × ℝ) := if t = 0 then [(5, 0), (0, 0)] else [(5, 0)]

/-- The hypotheses of `C198_run_violated` are met by a run of two steps: the particle 5, whose distance is NaN, stays, the particle 0, whose distance is 0, is thrown away; the move from 5 to 5/2, whose distance is a number,
is refused. -/
theorem exRun : ∃ s, run exEnv exDist exSort (Verif.Rsmc.exConfig 0) 2 exStart = .ok s ∧ (s.hist.map Rec.params) = [[5, 0], [5, 5]] ∧ s.hist.map Rec.distances = [[.nan, .num 0], [.nan, .nan]] := by
  have hd := Verif.Rsmc.exConfig_drop 0
  have h0 : exDist 0 = .num 0 := by unfold exDist; rw [if_neg (by norm_num)]
  have h5 : exDist 5 = .nan := by unfold exDist; rw [if_pos (by norm_num)]
  have ht1 : trim exSort (Verif.Rsmc.exConfig 0) [5, 0] [.nan, .num 0] = ([5], [.nan]) := by
    have : exSort [(.nan, 5), (.num 0, 0)] = [(.nan, 5), (.num 0, 0)] := exSort_sorts.same _ (by simp [List.isChain_cons_cons, Num.lt])
    simp [trim, this, hd, show (Verif.Rsmc.exConfig 0).n = 2 from rfl]
  have ht2 : trim exSort (Verif.Rsmc.exConfig 0) [5, 5] [.nan, .nan] = ([5], [.nan]) := by
    rw [zip_spoiled exSort exSort_sorts _ _ _ (by simp) rfl, hd]
    simp [Verif.Rsmc.exConfig]
  have a1 : accept exEnv exDist 2 (.num 1) none 1 5 0 = some ⟨5, .nan, 1, 1⟩ := by
    have := C198_first_violated exEnv exDist 0 (.num 1) 1 5 0 trivial (by exact h5)
    simpa [exEnv] using this
  have a2 : accept exEnv exDist 2 (.num 1) none 1 0 0 = some ⟨0, .num 0, 1, 1⟩ := by
    have g1 : (distMax exEnv).gt (.num 1) := trivial
    have g2 : ¬ (Num.num 0).gt (.num 1) := by simp [Num.gt, Num.lt]
    rw [accept, priorLoop, if_pos g1]
    simp only [priorLoop]
    rw [if_neg (by simpa [exEnv, h0] using g2)]
    simp [exEnv, h0]
  have h1 : step exEnv exDist exSort (Verif.Rsmc.exConfig 0) 2 0 (exStart 0) ⟨[], none, 1, [], [], 0⟩ =
      .ok ⟨[.num 1], some ([5], [.nan]), 1, [⟨.num 1, 1, [5, 0], [.nan, .num 0]⟩], [⟨.num 1, 1, [5, 0], [.nan, .num 0]⟩], 2⟩ := by
    have g : ¬ (Num.num 1).lt (.num (Verif.Rsmc.exConfig 0).epsFinal) := by norm_num [Num.lt, Verif.Rsmc.exConfig]
    unfold step
    simp only [threshold]
    rw [show (Verif.Rsmc.exConfig 0).epsInit = 1 from rfl, if_neg g, if_neg (by simp [exStart, wanted, Verif.Rsmc.exConfig])]
    simp only [exStart, if_true, List.map_cons, List.map_nil, seen, Option.map_none, Int.toNat_one, a1, a2, collect]
    norm_num [nextMoves, base, ht1, show (Verif.Rsmc.exConfig 0).full = true from rfl, show (Verif.Rsmc.exConfig 0).n = 2 from rfl, ht1]
  have a3 : accept exEnv exDist 2 .nan (some (⟨[5], [1]⟩, [.nan])) 1 5 0 = some ⟨5, .nan, 0, 1⟩ := by
    have g : ∀ y, ¬ (exDist y).lt .nan := by intro y; cases exDist y <;> exact id
    simp [accept, moveLoop, exEnv, propose, g]
  have h2 : step exEnv exDist exSort (Verif.Rsmc.exConfig 0) 2 1 (exStart 1)
      ⟨[.num 1], some ([5], [.nan]), 1, [⟨.num 1, 1, [5, 0], [.nan, .num 0]⟩], [⟨.num 1, 1, [5, 0], [.nan, .num 0]⟩], 2⟩ =
      .ok ⟨[.num 1, .nan], some ([5], [.nan]), 1, [⟨.num 1, 1, [5, 0], [.nan, .num 0]⟩, ⟨.nan, 1, [5, 5], [.nan, .nan]⟩], [⟨.num 1, 1, [5, 0], [.nan, .num 0]⟩, ⟨.nan, 1, [5, 5], [.nan, .nan]⟩], 3⟩ := by
    have g : ¬ Num.nan.lt (.num (Verif.Rsmc.exConfig 0).epsFinal) := id
    unfold step
    simp only [threshold, List.getLast?_singleton]
    rw [if_neg g, if_neg (by simp [exStart, wanted, hd])]
    simp only [exStart, one_ne_zero, if_false, List.map_cons, List.map_nil, seen, Option.map_some, Int.toNat_one, List.length_singleton, List.replicate_one, Nat.cast_one, div_one, a3, collect]
    norm_num [nextMoves, base, ht2, show (Verif.Rsmc.exConfig 0).full = true from rfl, show (Verif.Rsmc.exConfig 0).n = 2 from rfl]
  refine ⟨⟨[.num 1, .nan], some ([5], [.nan]), 1, [⟨.num 1, 1, [5, 0], [.nan, .num 0]⟩, ⟨.nan, 1, [5, 5], [.nan, .nan]⟩],
    [⟨.num 1, 1, [5, 0], [.nan, .num 0]⟩, ⟨.nan, 1, [5, 5], [.nan, .nan]⟩], 3⟩, ?_, rfl, rfl⟩
  unfold run
  rw [show (Verif.Rsmc.exConfig 0).steps = 2 from rfl, loop, h1]
  simp only
  rw [loop, h2]
  simp only [loop]

end Verif.Nan.Rsmc
