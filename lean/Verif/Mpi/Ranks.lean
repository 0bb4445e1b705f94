import Mathlib.Data.List.Sort
import Mathlib.Tactic.Ring
/-
Model of `abcpy/backends/mpimanager.py` 14-64: how ranks get their roles. Property theorem C22.
-/
namespace Verif.Mpi

/-- `_model_color`, mpimanager.py 36-39. `int(x / y + 1)` is integer division here; the float rounding of ranks above
2^53 is not modelled. -/
def color (S : List Nat) (ppm rank : Nat) : Nat :=
  if rank ∈ S then 0 else (rank - (S.filter (· < rank)).length) / ppm + 1

/-- `_model_rank`: position among the ranks of the same color (`Split` with key = rank), mpimanager.py 40-42. -/
def modelRank (S : List Nat) (ppm rank : Nat) : Nat :=
  ((List.range rank).filter fun r => color S ppm r = color S ppm rank).length

/-- The ranks of team `t`, i.e. of one model communicator. -/
def team (S : List Nat) (ppm size t : Nat) : List Nat := (List.range size).filter fun r => color S ppm r = t

/-- The scheduler communicator, mpimanager.py 45-50. -/
def schedulerComm (S : List Nat) (ppm size : Nat) : List Nat :=
  (List.range size).filter fun r => color S ppm r = 0 ∨ modelRank S ppm r = 0

inductive Role
  | scheduler
  | leader
  | worker
  deriving DecidableEq

/-- mpimanager.py 52-64. -/
def role (S : List Nat) (ppm rank : Nat) : Role :=
  if rank = 0 then .scheduler else if modelRank S ppm rank = 0 then .leader else .worker

/-- Entries of `is_map_done` at the start of a map, mpi.py 234-235. -/
def mapDoneInit (S : List Nat) (ppm size : Nat) : List Bool :=
  (List.range (schedulerComm S ppm size).length).map fun i => i ∈ S

/-! ### Lemmas -/

theorem below_count (S : List Nat) (hS : S.Nodup) (r : Nat) :
    ((List.range r).filter fun i => i ∉ S).length + (S.filter (· < r)).length = r := by
  induction r with
  | zero => simp
  | succ r ih =>
    have h1 : (S.filter (· < r + 1)).length = (S.filter (· < r)).length + S.count r := by
      clear ih hS
      induction S with
      | nil => rfl
      | cons a S ihS =>
        simp only [List.filter_cons, List.count_cons, decide_eq_true_eq, beq_iff_eq]
        rcases Nat.lt_trichotomy a r with h | h | h
        · rw [if_pos (by omega), if_pos h, if_neg (by omega)]; simp only [List.length_cons]; omega
        · rw [if_pos (by omega), if_neg (by omega), if_pos h]; simp only [List.length_cons]; omega
        · rw [if_neg (by omega), if_neg (by omega), if_neg (by omega)]; omega
    rw [h1, List.range_succ, List.filter_append, List.length_append]
    by_cases hr : r ∈ S
    · rw [List.count_eq_one_of_mem hS hr]; simp [hr]; simp at ih; omega
    · rw [List.count_eq_zero.2 hr]; simp [hr]; simp at ih; omega

theorem getElem_filter_range (p : Nat → Bool) (size r : Nat) (hr : r < size) (hp : p r = true) :
    ((List.range size).filter p)[((List.range r).filter p).length]? = some r := by
  obtain ⟨k, rfl⟩ : ∃ k, size = r + (k + 1) := ⟨size - r - 1, by omega⟩
  rw [List.range_add, List.filter_append, List.getElem?_append_right (by omega), Nat.sub_self, List.range_succ_eq_map]
  simp [hp]

theorem filter_window {α : Type} (L : List α) (q : α → Bool) (a c : Nat)
    (h : ∀ j x, L[j]? = some x → (q x = true ↔ a ≤ j ∧ j < a + c)) : L.filter q = (L.drop a).take c := by
  have hsplit : L = L.take a ++ ((L.drop a).take c ++ (L.drop a).drop c) := by rw [List.take_append_drop, List.take_append_drop]
  conv_lhs => rw [hsplit]
  rw [List.filter_append, List.filter_append]
  have h1 : (L.take a).filter q = [] := by
    rw [List.filter_eq_nil_iff]
    intro x hx hq
    obtain ⟨j, hj⟩ := List.mem_iff_getElem?.1 hx
    rw [List.getElem?_take] at hj
    split at hj
    · have := (h j x hj).1 hq; omega
    · cases hj
  have h2 : ((L.drop a).take c).filter q = (L.drop a).take c := by
    rw [List.filter_eq_self]
    intro x hx
    obtain ⟨j, hj⟩ := List.mem_iff_getElem?.1 hx
    rw [List.getElem?_take] at hj
    split at hj
    · rw [List.getElem?_drop] at hj
      exact (h _ x hj).2 (by omega)
    · cases hj
  have h3 : ((L.drop a).drop c).filter q = [] := by
    rw [List.filter_eq_nil_iff]
    intro x hx hq
    obtain ⟨j, hj⟩ := List.mem_iff_getElem?.1 hx
    rw [List.getElem?_drop, List.getElem?_drop] at hj
    have := (h _ x hj).1 hq; omega
  rw [h1, h2, h3]; simp

/-! ### C22 -/

/-- C22, the teams. For every communicator size, every list of scheduler ranks without repetition and every team size:
the schedulers' color is 0, and team `t ≥ 1` is the `t`-th block of `ppm` consecutive non-scheduler ranks (the last one
may be shorter). So every other rank is in exactly one team. -/
theorem C22_teams (S : List Nat) (hS : S.Nodup) (ppm size : Nat) (hp : 0 < ppm) :
    team S ppm size 0 = (List.range size).filter (fun r => r ∈ S) ∧
    ∀ t, team S ppm size (t + 1) = (((List.range size).filter fun r => r ∉ S).drop (t * ppm)).take ppm := by
  constructor
  · unfold team color
    apply List.filter_congr
    intro r _
    by_cases hr : r ∈ S <;> simp [hr]
  · intro t
    have h1 : team S ppm size (t + 1) =
        ((List.range size).filter fun r => r ∉ S).filter fun r => color S ppm r = t + 1 := by
      unfold team
      rw [List.filter_filter]
      apply List.filter_congr
      intro r _
      by_cases hr : r ∈ S <;> simp [hr, color]
    rw [h1]
    apply filter_window
    intro j r hj
    have hmem := List.mem_of_getElem? hj
    rw [List.mem_filter, List.mem_range] at hmem
    obtain ⟨hlt, hr⟩ := hmem
    have hidx := getElem_filter_range (fun r => decide (r ∉ S)) size r hlt hr
    have hjeq : j = ((List.range r).filter fun r => decide (r ∉ S)).length := by
      have hnd : ((List.range size).filter fun r => decide (r ∉ S)).Nodup := List.nodup_range.filter _
      obtain ⟨h1, e1⟩ := List.getElem?_eq_some_iff.1 hj
      obtain ⟨h2, e2⟩ := List.getElem?_eq_some_iff.1 hidx
      exact (List.Nodup.getElem_inj_iff hnd).1 (e1.trans e2.symm)
    have hb := below_count S hS r
    have hr' : r ∉ S := by simpa using hr
    have hc : color S ppm r = j / ppm + 1 := by
      unfold color
      rw [if_neg hr', hjeq]
      congr 2
      omega
    simp only [decide_eq_true_eq, hc, Nat.add_right_cancel_iff]
    rw [Nat.div_eq_iff hp]
    constructor
    · rintro ⟨h1, h2⟩; constructor <;> omega
    · rintro ⟨h1, h2⟩; constructor <;> omega

theorem modelRank_zero (S : List Nat) (ppm r : Nat) :
    modelRank S ppm r = 0 ↔ ∀ r' < r, color S ppm r' ≠ color S ppm r := by
  unfold modelRank
  rw [List.length_eq_zero_iff, List.filter_eq_nil_iff]
  simp

theorem color_zero_only (ppm r : Nat) : color [0] ppm r = if r = 0 then 0 else (r - 1) / ppm + 1 := by
  unfold color
  by_cases h : r = 0
  · simp [h]
  · simp [h, Nat.pos_of_ne_zero h]

/-- C22, the roles, for the single scheduler rank 0 (the default): rank 0 is the only scheduler; a rank is a leader
exactly when it is the lowest rank of its team, so every team has exactly one leader; and in the scheduler communicator
the scheduler is number 0 and the leader of team `t` is number `t`, so a map waits exactly for the leaders.
Missing: other scheduler lists, where the claim is false. -/
theorem C22_roles_partial (ppm size : Nat) (hp : 0 < ppm) (hsize : 0 < size) :
    (∀ r, role [0] ppm r = .scheduler ↔ r = 0) ∧
    (∀ r, role [0] ppm r = .leader ↔ r ≠ 0 ∧ ∀ r' < r, color [0] ppm r' ≠ color [0] ppm r) ∧
    (∀ t, team [0] ppm size (t + 1) ≠ [] →
      ∃ r ∈ team [0] ppm size (t + 1), role [0] ppm r = .leader ∧ (∀ r' ∈ team [0] ppm size (t + 1), r ≤ r') ∧
        ∀ r' ∈ team [0] ppm size (t + 1), role [0] ppm r' = .leader → r' = r) ∧
    (∀ r < size, r ∈ schedulerComm [0] ppm size ↔ role [0] ppm r ≠ .worker) ∧
    schedulerComm [0] ppm size = 0 :: (List.range ((size - 1 + (ppm - 1)) / ppm)).map (fun t => t * ppm + 1) ∧
    (∀ t r, (schedulerComm [0] ppm size)[t]? = some r → color [0] ppm r = t) ∧
    mapDoneInit [0] ppm size = true :: (List.range ((size - 1 + (ppm - 1)) / ppm)).map (fun _ => false) := by
  have hlead : ∀ r, role [0] ppm r = .leader ↔ r ≠ 0 ∧ ∀ r' < r, color [0] ppm r' ≠ color [0] ppm r := by
    intro r
    rw [← modelRank_zero]
    unfold role
    by_cases h0 : r = 0
    · simp [h0]
    · by_cases h1 : modelRank [0] ppm r = 0 <;> simp [h0, h1]
  have hschedEq : ∀ r, (color [0] ppm r = 0 ∨ modelRank [0] ppm r = 0) ↔ r = 0 ∨ ∃ t, r = t * ppm + 1 := by
    intro r
    rw [modelRank_zero, color_zero_only]
    by_cases h0 : r = 0
    · simp [h0]
    · rw [if_neg h0]
      simp only [h0, false_or]
      constructor
      · rintro (h | h)
        · exact absurd h (Nat.succ_ne_zero _)
        · refine ⟨(r - 1) / ppm, ?_⟩
          by_contra hne
          have hmod := Nat.div_add_mod (r - 1) ppm
          rw [Nat.mul_comm] at hmod
          have hlt : (r - 1) / ppm * ppm + 1 < r := by omega
          apply h _ hlt
          rw [color_zero_only, if_neg (by omega)]
          rw [Nat.add_sub_cancel, Nat.mul_div_cancel _ hp]
      · rintro ⟨t, rfl⟩
        right
        intro r' hr'
        rw [color_zero_only, Nat.add_sub_cancel, Nat.mul_div_cancel _ hp]
        split
        · omega
        · rename_i h
          have : (r' - 1) / ppm < t := by rw [Nat.div_lt_iff_lt_mul hp]; omega
          omega
  have hcomm : schedulerComm [0] ppm size = 0 :: (List.range ((size - 1 + (ppm - 1)) / ppm)).map (fun t => t * ppm + 1) := by
    have hs1 : (schedulerComm [0] ppm size).Pairwise (· < ·) := (List.pairwise_lt_range).filter _
    have hs2 : (0 :: (List.range ((size - 1 + (ppm - 1)) / ppm)).map (fun t => t * ppm + 1)).Pairwise (· < ·) := by
      rw [List.pairwise_cons]
      refine ⟨by simp, ?_⟩
      rw [List.pairwise_map]
      refine List.pairwise_lt_range.imp fun {a b} hab => ?_
      have := Nat.mul_lt_mul_of_pos_right hab hp
      omega
    refine List.Perm.eq_of_pairwise (le := (· < ·)) (fun a b _ _ h1 h2 => by omega) hs1 hs2 ?_
    refine (List.perm_ext_iff_of_nodup (hs1.imp fun h => by omega) (hs2.imp fun h => by omega)).2 fun r => ?_
    unfold schedulerComm
    rw [List.mem_filter, List.mem_range, decide_eq_true_eq, hschedEq]
    simp only [List.mem_cons, List.mem_map, List.mem_range]
    have key : ∀ t, t < (size - 1 + (ppm - 1)) / ppm ↔ t * ppm + 1 < size := by
      intro t
      rw [Nat.lt_div_iff_mul_lt hp]
      omega
    constructor
    · rintro ⟨h1, rfl | ⟨t, rfl⟩⟩
      · exact .inl rfl
      · exact .inr ⟨t, (key t).2 h1, rfl⟩
    · rintro (rfl | ⟨t, ht, rfl⟩)
      · exact ⟨hsize, .inl rfl⟩
      · exact ⟨(key t).1 ht, .inr ⟨t, rfl⟩⟩
  refine ⟨?_, hlead, ?_, ?_, hcomm, ?_, ?_⟩
  · intro r
    unfold role
    by_cases h0 : r = 0
    · simp [h0]
    · by_cases h1 : modelRank [0] ppm r = 0 <;> simp [h0, h1]
  · intro t hne
    have hmem : ∀ {r}, r ∈ team [0] ppm size (t + 1) ↔ r < size ∧ color [0] ppm r = t + 1 := by
      intro r; simp [team]
    cases hT : team [0] ppm size (t + 1) with
    | nil => exact absurd hT hne
    | cons r rest =>
      have hsort : (team [0] ppm size (t + 1)).Pairwise (· < ·) := List.pairwise_lt_range.filter _
      rw [hT, List.pairwise_cons] at hsort
      have hr : r ∈ team [0] ppm size (t + 1) := by rw [hT]; simp
      have hmin : ∀ r' ∈ team [0] ppm size (t + 1), r ≤ r' := by
        intro r' h'
        rw [hT, List.mem_cons] at h'
        rcases h' with rfl | h'
        · exact le_rfl
        · exact (hsort.1 r' h').le
      rw [← hT]
      refine ⟨r, hr, ?_, hmin, ?_⟩
      · rw [hlead]
        have hc := (hmem.1 hr).2
        refine ⟨fun h0 => by rw [h0, color_zero_only] at hc; simp at hc, fun r' h' hcc => ?_⟩
        have := hmin r' (hmem.2 ⟨by have := (hmem.1 hr).1; omega, hcc.trans hc⟩)
        omega
      · intro r' h' hl
        have h1 := hmin r' h'
        rcases Nat.lt_or_ge r r' with h2 | h2
        · exact absurd ((hmem.1 hr).2.trans (hmem.1 h').2.symm) (((hlead r').1 hl).2 r h2)
        · omega
  · intro r hr
    unfold schedulerComm role
    rw [List.mem_filter, List.mem_range, decide_eq_true_eq, color_zero_only]
    by_cases h0 : r = 0
    · simp [h0, hsize]
    · by_cases h1 : modelRank [0] ppm r = 0 <;> simp [h0, h1, hr]
  · intro t r h
    rw [hcomm] at h
    cases t with
    | zero => simp only [List.getElem?_cons_zero, Option.some.injEq] at h; subst h; simp [color_zero_only]
    | succ t =>
      rw [List.getElem?_cons_succ, List.getElem?_map] at h
      cases hg : (List.range ((size - 1 + (ppm - 1)) / ppm))[t]? with
      | none => simp [hg] at h
      | some u =>
        have : u = t := by
          obtain ⟨h1, e1⟩ := List.getElem?_eq_some_iff.1 hg
          simpa using e1.symm
        subst this
        rw [hg] at h
        simp only [Option.map_some, Option.some.injEq] at h
        subst h
        rw [color_zero_only, if_neg (by omega), Nat.add_sub_cancel, Nat.mul_div_cancel _ hp]
  · unfold mapDoneInit
    rw [hcomm, List.length_cons, List.length_map, List.length_range, List.range_succ_eq_map]
    simp [Function.comp_def]

/-- Seven ranks in teams of two: 1-2, 3-4, 5-6. -/
example : team [0] 2 7 2 = [3, 4] ∧ role [0] 2 3 = .leader ∧ role [0] 2 4 = .worker ∧ schedulerComm [0] 2 7 = [0, 1, 3, 5] := by
  decide

/-- C22 fails when rank 0 is not a scheduler rank: with scheduler list [1], rank 0 still acts as the scheduler, although
it is the lowest rank of the first team, which therefore has no leader; and rank 1, the scheduler by choice, acts as a
leader. -/
theorem C22_scheduler_not_zero_violated :
    team [1] 2 5 1 = [0, 2] ∧ role [1] 2 0 = .scheduler ∧ role [1] 2 2 = .worker ∧ role [1] 2 1 = .leader := by decide

/-- C22 fails with two scheduler ranks: with scheduler list [0, 1], rank 1 acts as a worker. -/
theorem C22_two_schedulers_violated : color [0, 1] 1 1 = 0 ∧ role [0, 1] 1 1 = .worker := by decide

end Verif.Mpi
