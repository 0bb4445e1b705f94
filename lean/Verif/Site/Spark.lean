import Verif.Schedule.Spark
import Verif.Site.Run
/-
C157: maps with the Spark backend (Schedule/Spark.lean) give what the other backends give, for every number of slices and every history of lost and repeated attempts.
-/
namespace Verif.Site

open Graph Schedule

variable {T S A : Type}

/-- Specification: the slices of a job over `n` elements are the consecutive elements. -/
def Slices (n : Nat) (slices : List (List Nat)) : Prop := slices.flatten = List.range n

/-- Specification: every slice has an attempt whose process was not lost. -/
def Attempted (slices : List (List Nat)) (history : List Attempt) : Prop := ∀ j < slices.length, ∃ e ∈ history, e.slice = j ∧ e.lost = false

/-- Specification: the schedule in which process `j` runs slice `j`. -/
def bySlice (slices : List (List Nat)) (first : Nat := 0) : List (Nat × Nat) := (slices.zipIdx first).flatMap fun e => e.1.map fun i => (e.2, i)

theorem bySlice_map (slices : List (List Nat)) (k : Nat) : (bySlice slices k).map (·.2) = slices.flatten := by
  induction slices generalizing k with
  | nil => rfl
  | cons s l ih =>
    have := ih (k + 1)
    unfold bySlice at this ⊢
    rw [List.zipIdx_cons, List.flatMap_cons, List.map_append, this, List.flatten_cons, List.map_map]
    congr 1
    exact List.map_id s

theorem bySlice_complete (n : Nat) (slices : List (List Nat)) (h : Slices n slices) : Complete n (bySlice slices) := by
  unfold Complete
  rw [bySlice_map, h]

/-- The results of all tasks of a list, in order, on one object, going on after exceptions. -/
def outs (run : Nat → S → S × Option A) : List Nat → S → List (Option A)
  | [], _ => []
  | i :: l, s => (run i s).2 :: outs run l (run i s).1

theorem outs_length (run : Nat → S → S × Option A) (l : List Nat) (s : S) : (outs run l s).length = l.length := by
  induction l generalizing s with
  | nil => rfl
  | cons i l ih => simp [outs, ih]

theorem attempt_eq (p : Pds S A) (l : List Nat) (s : S) : attempt p l s = collect (outs p.run l s) := by
  induction l generalizing s with
  | nil => rfl
  | cons i l ih =>
    rw [attempt, outs]
    rcases hq : p.run i s with ⟨s', _ | a⟩
    · rfl
    · simp only [collect, ih]
      cases collect (outs p.run l s') <;> rfl

theorem execute_slice (run : Nat → S → S × Option A) (j : Nat) (l : List Nat) (rest : List (Nat × Nat)) (objects : Nat → S) :
    ∃ s', execute run id (l.map (fun i => (j, i)) ++ rest) objects = l.zip (outs run l (objects j)) ++ execute run id rest (Function.update objects j s') := by
  induction l generalizing objects with
  | nil => exact ⟨objects j, by simp [outs]⟩
  | cons i l ih =>
    obtain ⟨s', h⟩ := ih (Function.update objects j (run i (objects j)).1)
    refine ⟨s', ?_⟩
    rw [List.map_cons, List.cons_append, execute, outs, List.zip_cons_cons, List.cons_append]
    simp only [id_eq]
    rw [h]
    simp [Function.update_idem]

theorem execute_slices (run : Nat → S → S × Option A) (s : S) (slices : List (List Nat)) (k : Nat) (objects : Nat → S) (h : ∀ j, k ≤ j → objects j = s) :
    execute run id (bySlice slices k) objects = slices.flatten.zip (slices.flatMap fun l => outs run l s) := by
  induction slices generalizing k objects with
  | nil => rfl
  | cons l slices ih =>
    have hb : bySlice (l :: slices) k = l.map (fun i => (k, i)) ++ bySlice slices (k + 1) := by
      simp [bySlice, List.zipIdx_cons]
    obtain ⟨s', hs⟩ := execute_slice run k l (bySlice slices (k + 1)) objects
    rw [hb, hs, h k le_rfl, ih (k + 1), List.flatten_cons, List.flatMap_cons, List.zip_append (by rw [outs_length])]
    intro j hj
    rw [Function.update_of_ne (by omega)]
    exact h j (by omega)

theorem find_zip (n : Nat) (l : List A) (hl : l.length = n) : (List.range n).map (fun i => (((List.range n).zip l).find? fun r => r.1 == i).map (·.2)) = l.map some := by
  subst hl
  apply List.ext_getElem
  · simp
  intro i h1 h2
  simp only [List.length_map, List.length_range] at h1
  simp only [List.getElem_map, List.getElem_range]
  have : ((List.range l.length).zip l).find? (fun r => r.1 == i) = some (i, l[i]) := by
    rw [List.find?_eq_some_iff_getElem]
    refine ⟨by simp, i, by simpa using h1, by simp, ?_⟩
    intro j hj
    simp only [List.getElem_zip, List.getElem_range, Bool.not_eq_true', beq_eq_false_iff_ne, ne_eq]
    omega
  rw [this]
  rfl

theorem collect_append {β : Type} (l l' : List (Option β)) : collect (l ++ l') = (collect l).bind fun a => (collect l').map (a ++ ·) := by
  induction l with
  | nil => simp [collect]
  | cons x l ih =>
    cases x with
    | none => rfl
    | some x =>
      rw [List.cons_append, collect, collect, ih]
      cases collect l <;> cases collect l' <;> rfl

theorem collect_flatMap {γ β : Type} (f : γ → List (Option β)) (l : List γ) : collect (l.flatMap f) = (collect (l.map fun x => collect (f x))).map List.flatten := by
  induction l with
  | nil => rfl
  | cons x l ih =>
    rw [List.flatMap_cons, collect_append, ih, List.map_cons]
    cases collect (f x) with
    | none => rfl
    | some a =>
      rw [collect]
      cases collect (l.map fun x => collect (f x)) <;> simp

theorem sliceResult_cases (p : Pds S A) (history : List Attempt) (s : S) (j : Nat) (slice : List Nat) :
    sliceResult p history s j slice = none ∨ sliceResult p history s j slice = attempt p slice s := by
  unfold sliceResult
  induction history with
  | nil => exact .inl rfl
  | cons e l ih =>
    rw [List.findSome?_cons]
    by_cases h : e.slice = j ∧ e.lost = false
    · rw [if_pos h]
      cases hq : attempt p slice s with
      | none => simpa [hq] using ih
      | some a => exact .inr rfl
    · rw [if_neg h]; exact ih

theorem sliceResult_eq (p : Pds S A) (history : List Attempt) (s : S) (j : Nat) (slice : List Nat) (h : ∃ e ∈ history, e.slice = j ∧ e.lost = false) :
    sliceResult p history s j slice = attempt p slice s := by
  rcases sliceResult_cases p history s j slice with h0 | h0
  · obtain ⟨e, he, hj⟩ := h
    unfold sliceResult at h0 ⊢
    have := (List.findSome?_eq_none_iff.1 h0) e he
    rw [if_pos hj] at this
    rw [h0, this]
  · exact h0

/-- What `collect` returns, for a history in which every slice was attempted on a process that was not lost. -/
theorem sparkCollect_eq (p : Pds S A) (slices : List (List Nat)) (history : List Attempt) (ha : Attempted slices history) (s : S) :
    (sparkCollect p slices history s).2 = collect (slices.flatMap fun l => outs p.run l s) := by
  unfold sparkCollect
  rw [collect_flatMap]
  simp only
  congr 2
  have : slices.map (fun l => collect (outs p.run l s)) = slices.zipIdx.map fun e => collect (outs p.run e.1 s) := by
    conv_lhs => rw [← List.zipIdx_map_fst 0 slices]
    rw [List.map_map]; rfl
  rw [this]
  apply List.map_congr_left
  rintro ⟨l, j⟩ he
  have hj : j < slices.length := by
    have := List.mem_zipIdx he
    omega
  simp only
  rw [sliceResult_eq p history s j l (ha j hj), attempt_eq]

theorem run_eq (run : T → S → S × Option A) (tasks : List T) : (sparkMap run (sparkParallelize tasks)).run = fun i => onTask run tasks[i]? := by
  funext i s
  unfold sparkMap sparkParallelize
  simp only
  cases tasks[i]? <;> rfl

/-- C157: `collect` of a mapped list with the Spark backend returns what a map with the MPI backend returns in which process `j` runs slice `j`; it raises if and only if one of the tasks raises; and the sampler of the
driver stays as it is. So all that is said of every complete schedule (C123, C139, C146, C154, C155, C156) holds for the Spark backend. -/
theorem C157_schedule (run : T → S → S × Option A) (tasks : List T) (slices : List (List Nat)) (hs : Slices tasks.length slices) (history : List Attempt) (ha : Attempted slices history) (s : S) :
    Complete tasks.length (bySlice slices) ∧
    sparkCollect (sparkMap run (sparkParallelize tasks)) slices history s = ((runMap run tasks (some (bySlice slices)) s).1, collect (runMap run tasks (some (bySlice slices)) s).2) := by
  refine ⟨bySlice_complete _ _ hs, ?_⟩
  apply Prod.ext
  · rfl
  rw [sparkCollect_eq _ _ _ ha, run_eq]
  unfold runMap mapMpi
  simp only
  have he : execute (onTask run) (fun i => tasks[i]?) (bySlice slices) (fun _ => s) = execute (fun i => onTask run tasks[i]?) id (bySlice slices) (fun _ => s) := by
    generalize bySlice slices = l
    generalize (fun _ => s : Nat → S) = o
    induction l generalizing o with
    | nil => rfl
    | cons e l ih => rw [execute, execute, ih]; rfl
  rw [he, execute_slices _ s slices 0 _ (fun _ _ => rfl), hs]
  have hl : (slices.flatMap fun l => outs (fun i => onTask run tasks[i]?) l s).length = tasks.length := by
    have : slices.flatten.length = tasks.length := by rw [hs, List.length_range]
    rw [← this, List.length_flatMap, List.length_flatten]
    congr 1
    exact List.map_congr_left fun l _ => outs_length ..
  rw [find_zip _ _ hl, List.map_map]
  congr 1
  exact (List.map_id _).symm

/-- C157: for tasks that do not look at what other tasks left in the sampler, `collect` returns the results in the order of the elements, for all slices and histories. -/
theorem C157_results (run : T → S → S × Option A) (tasks : List T) (P : S → Prop) (f : T → Option A) (h : ∀ t ∈ tasks, ∀ s, P s → (run t s).2 = f t ∧ P (run t s).1)
    (slices : List (List Nat)) (hs : Slices tasks.length slices) (history : List Attempt) (ha : Attempted slices history) (s : S) (hp : P s) :
    sparkCollect (sparkMap run (sparkParallelize tasks)) slices history s = (s, collect (tasks.map f)) := by
  obtain ⟨h1, h2⟩ := C157_schedule run tasks slices hs history ha s
  rw [h2, (runMap_spec run tasks P f h (some (bySlice slices)) (by intro l hl; cases hl; exact h1) s hp).1]
  rfl

/-- C157: whatever is lost, `collect` raises or returns what it would return if nothing was lost: never a part, and never results of attempts that were lost. -/
theorem C157_lost (p : Pds S A) (slices : List (List Nat)) (history : List Attempt) (s : S) (out : List A) (h : (sparkCollect p slices history s).2 = some out)
    (history' : List Attempt) (ha : Attempted slices history') : (sparkCollect p slices history' s).2 = some out := by
  rw [← h]
  unfold sparkCollect at h ⊢
  simp only at h ⊢
  congr 2
  apply List.map_congr_left
  rintro ⟨l, j⟩ he
  have hj : j < slices.length := by
    have := List.mem_zipIdx he
    omega
  simp only
  rw [sliceResult_eq p history' s j l (ha j hj)]
  rcases sliceResult_cases p history s j l with h0 | h0
  · exfalso
    have hn : collect (slices.zipIdx.map fun e => sliceResult p history s e.2 e.1) = none := by
      rw [collect_eq_none]
      exact List.mem_map.2 ⟨(l, j), he, h0⟩
    rw [hn] at h
    exact absurd h (by simp)
  · exact h0.symm

/-- A job of three tasks in two slices; the first attempt at the second slice is lost. The tasks count in the sampler. -/
example : Slices 3 [[0], [1, 2]] ∧ Attempted [[0], [1, 2]] [⟨1, true⟩, ⟨0, false⟩, ⟨1, false⟩] ∧
    sparkCollect (sparkMap (fun t s => (s + 1, some (t + s))) (sparkParallelize [10, 20, 30])) [[0], [1, 2]] [⟨1, true⟩, ⟨0, false⟩, ⟨1, false⟩] 5 = (5, some [15, 25, 36]) ∧
    sparkCollect (sparkMap (fun t s => (s + 1, some (t + s))) (sparkParallelize [10, 20, 30])) [[0], [1, 2]] [⟨1, true⟩, ⟨0, false⟩] 5 = (5, none) := by
  refine ⟨rfl, ?_, by decide, by decide⟩
  intro j hj
  simp only [List.length_cons, List.length_nil] at hj
  have : j = 0 ∨ j = 1 := by omega
  rcases this with rfl | rfl
  · exact ⟨⟨0, false⟩, by simp, rfl, rfl⟩
  · exact ⟨⟨1, false⟩, by simp, rfl, rfl⟩

/-- Tasks that do not look at the sampler. -/
example : ∀ t ∈ [10, 20, 30], ∀ s : Nat, True → ((fun (t s : Nat) => (s + 1, some (t * 2))) t s).2 = some (t * 2) ∧ True := fun _ _ _ _ => ⟨rfl, trivial⟩

/-- The backends are not equal for tasks that look at what other tasks left: with the same elements, the sequential backend and a job with three slices give two lists. -/
example : (runMap (fun t s => (s + 1, some (t + s))) [10, 20, 30] none 5).2 = [some 15, some 26, some 37] ∧
    (sparkCollect (sparkMap (fun t s => (s + 1, some (t + s))) (sparkParallelize [10, 20, 30])) [[0], [1], [2]] [⟨0, false⟩, ⟨1, false⟩, ⟨2, false⟩] 5).2 = some [15, 25, 35] := by decide

end Verif.Site
