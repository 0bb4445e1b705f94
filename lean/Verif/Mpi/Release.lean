import Verif.Mpi.ProgramProps
import Mathlib.Tactic.IntervalCases
/-
C148: what a program has dropped is released by the processes (abcpy/backends/mpi.py 219-221, 237-240, 360-390, 555-561, 734-773).
-/
namespace Verif.Mpi

variable {V E : Type}

/-- Specification: the object number `h` of the list of ids exists, has not been destroyed, and has this id. -/
def Living (objs : List Nat) (alive : Nat → Bool) (id : Nat) : Prop := ∃ h, objs[h]? = some id ∧ alive h = true

/-- The ids handed out are different and not larger than the counter; objects that do not exist yet are not marked as destroyed. -/
structure Ids (cur : Nat) (objs : List Nat) (alive : Nat → Bool) : Prop where
  le : ∀ id ∈ objs, id ≤ cur
  nodup : objs.Nodup
  later : ∀ h, objs.length ≤ h → alive h = true

theorem Ids.snoc {cur : Nat} {objs : List Nat} {alive : Nat → Bool} (h : Ids cur objs alive) : Ids (cur + 1) (objs ++ [cur + 1]) alive where
  le id hid := by
    rcases List.mem_append.1 hid with h' | h'
    · have := h.le id h'; omega
    · simp only [List.mem_singleton] at h'; omega
  nodup := by
    rw [List.nodup_append]
    refine ⟨h.nodup, by simp, ?_⟩
    intro a ha b hb
    have := h.le a ha
    simp only [List.mem_singleton] at hb
    omega
  later k hk := h.later k (by simp at hk; omega)

theorem Ids.drop {cur : Nat} {objs : List Nat} {alive : Nat → Bool} (h : Ids cur objs alive) {k id : Nat} (hk : objs[k]? = some id) :
    Ids cur objs (Function.update alive k false) where
  le := h.le
  nodup := h.nodup
  later j hj := by
    have : k < objs.length := (List.getElem?_eq_some_iff.1 hk).1
    rw [Function.update_of_ne (by omega)]
    exact h.later j hj

theorem living_snoc {cur : Nat} {objs : List Nat} {alive : Nat → Bool} (h : Ids cur objs alive) (id : Nat) :
    Living (objs ++ [cur + 1]) alive id ↔ id = cur + 1 ∨ Living objs alive id := by
  constructor
  · rintro ⟨k, hk, ha⟩
    by_cases hl : k < objs.length
    · rw [List.getElem?_append_left hl] at hk
      exact .inr ⟨k, hk, ha⟩
    · rw [List.getElem?_append_right (by omega)] at hk
      obtain ⟨hk', e⟩ := List.getElem?_eq_some_iff.1 hk
      simp at e
      exact .inl e.symm
  · rintro (rfl | ⟨k, hk, ha⟩)
    · exact ⟨objs.length, by simp, h.later _ le_rfl⟩
    · exact ⟨k, by rw [List.getElem?_append_left (List.getElem?_eq_some_iff.1 hk).1]; exact hk, ha⟩

theorem living_drop {cur : Nat} {objs : List Nat} {alive : Nat → Bool} (h : Ids cur objs alive) {k i : Nat} (hk : objs[k]? = some i) (id : Nat) :
    Living objs (Function.update alive k false) id ↔ id ≠ i ∧ Living objs alive id := by
  have inj : ∀ j, objs[j]? = some i → j = k := by
    intro j hj
    obtain ⟨h1, e1⟩ := List.getElem?_eq_some_iff.1 hj
    obtain ⟨h2, e2⟩ := List.getElem?_eq_some_iff.1 hk
    exact (List.Nodup.getElem_inj_iff h.nodup).1 (e1.trans e2.symm)
  constructor
  · rintro ⟨j, hj, ha⟩
    have hne : j ≠ k := by rintro rfl; simp at ha
    rw [Function.update_of_ne hne] at ha
    refine ⟨?_, j, hj, ha⟩
    rintro rfl
    exact hne (inj j hj)
  · rintro ⟨hne, j, hj, ha⟩
    refine ⟨j, hj, ?_⟩
    rw [Function.update_of_ne]
    · exact ha
    · rintro rfl
      rw [hk] at hj
      exact hne (Option.some.inj hj).symm

theorem update_ne_none {β : Type} (f : Nat → Option β) (i : Nat) (b : β) (j : Nat) : Function.update f i (some b) j ≠ none ↔ j = i ∨ f j ≠ none := by
  by_cases h : j = i
  · subst h; simp
  · rw [Function.update_of_ne h]; simp [h]

theorem update_none_ne {β : Type} (f : Nat → Option β) (i j : Nat) : Function.update f i none j ≠ none ↔ j ≠ i ∧ f j ≠ none := by
  by_cases h : j = i
  · subst h; simp
  · rw [Function.update_of_ne h]; simp [h]

/-- What holds between two calls. -/
structure Tidy (m : MState V E) : Prop where
  ids : Ids m.curPds m.objs m.alive
  bids : Ids m.curBds m.bobjs m.balive
  leaders : ∀ l id, m.lpds l id ≠ none ↔ Living m.objs m.alive id
  scheduler : ∀ id, m.bds id ≠ none ↔ Living m.bobjs m.balive id
  teams : ∀ id, m.tbds id ≠ none ↔ Living m.bobjs m.balive id

theorem tidy_init : Tidy (MState.init : MState V E) where
  ids := ⟨by simp [MState.init], by simp [MState.init], fun _ _ => rfl⟩
  bids := ⟨by simp [MState.init], by simp [MState.init], fun _ _ => rfl⟩
  leaders l id := by simp [MState.init, Living]
  scheduler id := by simp [MState.init, Living]
  teams id := by simp [MState.init, Living]

theorem tidy_step {n : Nat} {argsort : List Nat → List Nat} {m m' : MState V E} {op : Op V E} {o : Out V E} (hm : Tidy m) (h : MStep n argsort m op m' o)
    (ho : o ≠ .broken) : Tidy m' := by
  cases h with
  | parallelize xs => exact ⟨hm.ids.snoc, hm.bids, fun l id => by simp only; rw [update_ne_none, living_snoc hm.ids, hm.leaders], hm.scheduler, hm.teams⟩
  | map f src id xs k w hid ha hxs hrun hst =>
    exact ⟨hm.ids.snoc, hm.bids, fun l id => by simp only; rw [update_ne_none, living_snoc hm.ids, hm.leaders], hm.scheduler, hm.teams⟩
  | mapBroken => exact absurd rfl ho
  | collectOk => exact hm
  | collectRaise => exact hm
  | collectBroken => exact absurd rfl ho
  | broadcast v =>
    exact ⟨hm.ids, hm.bids.snoc, hm.leaders, fun id => by simp only; rw [update_ne_none, living_snoc hm.bids, hm.scheduler],
      fun id => by simp only; rw [update_ne_none, living_snoc hm.bids, hm.teams]⟩
  | value => exact hm
  | valueBroken => exact absurd rfl ho
  | delPds h id hid ha hl =>
    exact ⟨hm.ids.drop hid, hm.bids, fun l j => by simp only; rw [update_none_ne, living_drop hm.ids hid, hm.leaders], hm.scheduler, hm.teams⟩
  | delPdsBroken => exact absurd rfl ho
  | delBds b id hid ha h1 h2 =>
    exact ⟨hm.ids, hm.bids.drop hid, hm.leaders, fun j => by simp only; rw [update_none_ne, living_drop hm.bids hid, hm.scheduler],
      fun j => by simp only; rw [update_none_ne, living_drop hm.bids hid, hm.teams]⟩
  | delBdsBroken => exact absurd rfl ho

theorem tidy_run {n : Nat} {argsort : List Nat → List Nat} {m m' : MState V E} {ops : List (Op V E)} {os : List (Out V E)} (hm : Tidy m)
    (h : MRun n argsort m ops os m') (ho : Out.broken ∉ os) : Tidy m' := by
  induction h with
  | nil => exact hm
  | cons h1 h2 _ ih => exact ih (tidy_step hm h1 h2) fun h => ho (List.mem_cons_of_mem _ h)
  | broken => simp at ho

/-- **C148, leaders and broadcast values.** After every program that does not break the backend, with every schedule: a leader has an entry for exactly those data sets that the program has not dropped, the scheduler
and the teams have a broadcast value for exactly those that have not been dropped; in particular nothing is held for a program that has dropped everything. Missing: what the scheduler keeps of the data sets
(`C148_violated`); workers that are no leaders keep the broadcast values (C140). -/
theorem C148_partial (n : Nat) (argsort : List Nat → List Nat) (ops : List (Op V E)) (os : List (Out V E)) (m : MState V E)
    (hrun : MRun n argsort MState.init ops os m) (hok : Out.broken ∉ os) :
    (∀ l id, m.lpds l id ≠ none ↔ Living m.objs m.alive id) ∧ (∀ id, m.bds id ≠ none ↔ Living m.bobjs m.balive id) ∧
    (∀ id, m.tbds id ≠ none ↔ Living m.bobjs m.balive id) := by
  have h := tidy_run tidy_init hrun hok
  exact ⟨h.leaders, h.scheduler, h.teams⟩

theorem pds_kept {n : Nat} {argsort : List Nat → List Nat} {m m' : MState V E} {ops : List (Op V E)} {os : List (Out V E)} (h : MRun n argsort m ops os m')
    {id : Nat} {xs : List V} (hid : id ≤ m.curPds) (hp : m.pds id = some xs) : m'.pds id = some xs := by
  have step : ∀ {m m1 : MState V E} {op : Op V E} {o : Out V E}, MStep n argsort m op m1 o → id ≤ m.curPds → m.pds id = some xs → id ≤ m1.curPds ∧ m1.pds id = some xs := by
    intro m m1 op o h hid hp
    cases h with
    | parallelize ys => exact ⟨by simp only; omega, by simp only; rw [Function.update_of_ne (by omega)]; exact hp⟩
    | map => exact ⟨by simp only; omega, hp⟩
    | mapBroken => exact ⟨by simp only; omega, hp⟩
    | collectOk => exact ⟨hid, hp⟩
    | collectRaise => exact ⟨hid, hp⟩
    | collectBroken => exact ⟨hid, hp⟩
    | broadcast => exact ⟨hid, hp⟩
    | value => exact ⟨hid, hp⟩
    | valueBroken => exact ⟨hid, hp⟩
    | delPds => exact ⟨hid, hp⟩
    | delPdsBroken => exact ⟨hid, hp⟩
    | delBds => exact ⟨hid, hp⟩
    | delBdsBroken => exact ⟨hid, hp⟩
  induction h with
  | nil => exact hp
  | cons h1 _ _ ih =>
    obtain ⟨a, b⟩ := step h1 hid hp
    exact ih a b
  | broken h1 => exact (step h1 hid hp).2

/-- **C148 is violated** for the data given to `parallelize`: whatever the program does afterwards, with every schedule, the scheduler still holds the list; `delete_remote_pds` (360-372) does not touch its store. -/
theorem C148_violated (n : Nat) (argsort : List Nat → List Nat) (xs : List V) (before after : List (Op V E)) (os : List (Out V E)) (m : MState V E)
    (hrun : MRun n argsort MState.init (before ++ .parallelize xs :: after) os m) (hok : Out.broken ∉ os) :
    ∃ id, m.pds id = some xs := by
  generalize MState.init = m0 at hrun
  induction before generalizing m0 os with
  | nil =>
    cases hrun with
    | cons h1 _ h2 =>
      cases h1
      exact ⟨m0.curPds + 1, pds_kept h2 le_rfl (by simp)⟩
    | broken => simp at hok
  | cons op before ih =>
    cases hrun with
    | cons _ _ h2 => exact ih _ (fun h => hok (List.mem_cons_of_mem _ h)) _ h2
    | broken => simp at hok

theorem runCons {n : Nat} {argsort : List Nat → List Nat} {m m' : MState V E} {op : Op V E} {ops : List (Op V E)} {o : Out V E} {os : List (Out V E)}
    (h : MRun n argsort m (op :: ops) (o :: os) m') (ho : o ≠ .broken := by simp) : ∃ m1, MStep n argsort m op m1 o ∧ MRun n argsort m1 ops os m' := by
  cases h with
  | cons h1 _ h2 => exact ⟨_, h1, h2⟩
  | broken => exact absurd rfl ho

/-- A program that drops everything: it runs, and the scheduler keeps the list, the leaders keep nothing. -/
example (n : Nat) (hn : 0 < n) (argsort : List Nat → List Nat) (ha : IsArgsort argsort) : ∃ (m : MState Nat Unit) (os : List (Out Nat Unit)),
    MRun n argsort MState.init [.parallelize [3, 1, 2], .broadcast 10, .map (fun _ x => .val (x * x)) 0, .collect 1, .delPds 1, .delPds 0, .delBds 0] os m ∧
      Out.broken ∉ os ∧ (∀ l id, m.lpds l id = none) ∧ (∀ id, m.bds id = none) ∧ ∃ id, m.pds id = some [3, 1, 2] := by
  obtain ⟨⟨m, hm⟩, -⟩ := C23_backends_agree_partial n hn argsort ha
    ([.parallelize [3, 1, 2], .broadcast 10, .map (fun _ x => .val (x * x)) 0, .collect 1, .delPds 1, .delPds 0, .delBds 0] : List (Op Nat Unit))
    (by simp [PipelineOnly]) [.unit, .unit, .unit, .list [9, 1, 4], .unit, .unit, .unit] rfl
  have hb : Out.broken ∉ ([.unit, .unit, .unit, .list [9, 1, 4], .unit, .unit, .unit] : List (Out Nat Unit)) := by simp
  obtain ⟨c1, c2, -⟩ := C148_partial n argsort _ _ m hm hb
  have key : (∀ id, ¬ Living m.objs m.alive id) ∧ ∀ id, ¬ Living m.bobjs m.balive id := by
    clear c1 c2
    obtain ⟨m1, h1, hm⟩ := runCons hm; cases h1
    obtain ⟨m1, h1, hm⟩ := runCons hm; cases h1
    obtain ⟨m1, h1, hm⟩ := runCons hm; cases h1
    obtain ⟨m1, h1, hm⟩ := runCons hm; cases h1
    obtain ⟨m1, h1, hm⟩ := runCons hm; cases h1
    obtain ⟨m1, h1, hm⟩ := runCons hm; cases h1
    obtain ⟨m1, h1, hm⟩ := runCons hm; cases h1
    cases hm
    constructor
    · rintro id ⟨h, h1, h2⟩
      have : h < 2 := by have := (List.getElem?_eq_some_iff.1 h1).1; simpa [MState.init] using this
      interval_cases h <;> simp at h2
    · rintro id ⟨h, h1, h2⟩
      have : h < 1 := by have := (List.getElem?_eq_some_iff.1 h1).1; simpa [MState.init] using this
      interval_cases h
      simp at h2
  refine ⟨m, _, hm, hb, fun l id => ?_, fun id => ?_, C148_violated n argsort [3, 1, 2] [] _ _ m hm hb⟩
  · by_contra h; exact key.1 id ((c1 l id).1 h)
  · by_contra h; exact key.2 id ((c2 id).1 h)

end Verif.Mpi
