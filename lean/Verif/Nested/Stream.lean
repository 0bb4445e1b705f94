import Verif.Rejection.Law
import Verif.Smc.Model
import Mathlib.Data.List.Pairwise
/-
C141: random numbers that a simulation has used are not used again.

`simulate` (abcpy/graphtools.py 396-421) gives the random generator of the task to `run_nested` if the team has more than one process (414), and `run_nested` executes the function on a copy of its arguments, also
on the leader (abcpy/backends/mpi.py 43-59: the arguments are pickled, broadcast and unpickled). So the numbers used by the simulator are taken from a copy, and the generator of the task stays where it was.
-/
namespace Verif.Nested

open Chance Rejection

/-- `simulate`, graphtools.py 409-418: `S` is the state of the random generator; `team` says whether the team has more than one process. The refusal of the input is part of `Y`. -/
def simulate {S Θ Y : Type} (team : Bool) (sim : Θ → S → S × Y) (θ : Θ) (rng : S) : S × Y := if team then (rng, (sim θ rng).2) else sim θ rng

/-- What a task does with its generator, in order: draws (from prior, kernel, population) or simulations. A use that starts at position `p` of the stream reads `len p` numbers. -/
inductive Use
  | draw (len : Nat → Nat)
  | sim (len : Nat → Nat)

/-- The parts of the stream that are read, each with first position and number of numbers. A simulation moves the position as in `simulate`. -/
def parts (team : Bool) : List Use → Nat → List (Nat × Nat)
  | [], _ => []
  | .draw len :: us, p => (p, len p) :: parts team us (p + len p)
  | .sim len :: us, p => (p, len p) :: parts team us (simulate team (fun (_ : Unit) q => (q + len q, ())) () p).1

/-- Specification: no number belongs to both parts. -/
def Apart (a b : Nat × Nat) : Prop := ∀ i, ¬ ((a.1 ≤ i ∧ i < a.1 + a.2) ∧ (b.1 ≤ i ∧ i < b.1 + b.2))

theorem parts_from (us : List Use) (p : Nat) : ∀ a ∈ parts false us p, p ≤ a.1 := by
  induction us generalizing p with
  | nil => simp [parts]
  | cons u us ih =>
    cases u with
    | draw len =>
      simp only [parts, List.mem_cons]
      rintro a (rfl | ha)
      · exact le_rfl
      · have := ih _ a ha
        omega
    | sim len =>
      simp only [parts, simulate, List.mem_cons]
      rintro a (rfl | ha)
      · exact le_rfl
      · have := ih _ a ha
        simp only [Bool.false_eq_true, if_false] at this
        omega

/-- **C141.** With one process per model, no random number is used twice in a task, whatever the task does. -/
theorem C141_partial (us : List Use) (p : Nat) : (parts false us p).Pairwise Apart := by
  induction us generalizing p with
  | nil => simp [parts]
  | cons u us ih =>
    have key : ∀ q (len : Nat → Nat), ∀ b ∈ parts false us (q + len q), Apart (q, len q) b := by
      intro q len b hb i hi
      have := parts_from us _ b hb
      simp only at hi
      omega
    cases u with
    | draw len => exact List.Pairwise.cons (key p len) (ih _)
    | sim len =>
      simp only [parts, simulate, Bool.false_eq_true, if_false]
      exact List.Pairwise.cons (key p len) (ih _)

example : parts false [.draw fun _ => 1, .sim fun _ => 3, .draw fun p => p] 0 = [(0, 1), (1, 3), (4, 4)] := by decide

/-- **C141 is violated** with several processes per model: whatever happened before, what follows a simulation starts with the numbers that the simulation has used. -/
theorem C141_violated (len len' : Nat → Nat) (u : Use) (hu : u = .draw len' ∨ u = .sim len') (us : List Use) (p : Nat) (h : 0 < len p) (h' : 0 < len' p) :
    ¬ (parts true (.sim len :: u :: us) p).Pairwise Apart := by
  intro hp
  have : Apart (p, len p) (p, len' p) := by
    rcases hu with rfl | rfl <;> · simp only [parts, simulate, if_true] at hp; exact List.rel_of_pairwise_cons hp (by simp)
  exact this p ⟨⟨le_rfl, by simp only; omega⟩, le_rfl, by simp only; omega⟩

/-! ### SMCABC with the r-hit kernel -/

/-- With several processes per model, repeated simulations at the same parameters are all the same: the loop for hits of SMCABC (`which_mcmc_kernel=1`, inferences.py 3854-3860) does not end if the first simulation is
no hit. -/
theorem C141_hits_violated {S Θ Y : Type} (sim : Θ → S → S × Y) (θ : Θ) (rng : S) (hit : Y → Bool) (h : hit (sim θ rng).2 = false) (r : Nat) (hr : 0 < r) (fuel : Nat) :
    Smc.hitLoop (fun w => some (simulate true sim θ w)) hit r fuel rng [] = none := by
  have key : ∀ fuel out, out.countP hit = 0 → Smc.hitLoop (fun w => some (simulate true sim θ w)) hit r fuel rng out = none := by
    intro fuel
    induction fuel with
    | zero => intros; rfl
    | succ fuel ih =>
      intro out ho
      rw [Smc.hitLoop, ho, if_pos hr]
      simp only [simulate, if_true]
      apply ih
      simp [List.countP_append, ho, h]
  exact key fuel [] rfl

/-! ### RejectionABC -/

/-- Parameter and data are each one random bit: one trial of RejectionABC (inferences.py 693-701). At the end of the stream the data are refused. -/
def bitTrial (team : Bool) : List Bool → List Bool × Bool × Option Bool
  | [] => ([], false, none)
  | θ :: l =>
    let r := simulate team (fun (_ : Bool) (l : List Bool) => (l.tail, l.head?)) θ l
    (r.1, θ, r.2)

/-- The law of one bit. -/
noncomputable def fair (_ : Bool) : ℝ := 1 / 2

open Classical in
/-- The probability that a task with `n` random bits returns the parameter `θ`, for the observation `true` and a threshold below the distance of different bits. -/
noncomputable def bitChance (team : Bool) (n : Nat) (θ : Bool) : ℝ :=
  prob [true, false] fair n fun l => decide (∃ c, returned (rejectTask (bitTrial team) (fun y => if y then 0 else 1) 1 (1 / 2 : ℝ) (n + 2) l) = some (θ, c))

theorem bit_empty (team : Bool) (θ0 : Option Bool) (c fuel : Nat) : returned (rejectLoop (bitTrial team) (fun y => if y then 0 else 1) 1 (1 / 2 : ℝ) fuel [] θ0 1 c) = none := by
  induction fuel generalizing θ0 c with
  | zero => rfl
  | succ fuel ih =>
    rw [rejectLoop_step _ _ _ _ _ _ _ _ _ (by norm_num)]
    exact ih _ _

theorem bit_single (team : Bool) (b : Bool) (θ0 : Option Bool) (c fuel : Nat) : returned (rejectLoop (bitTrial team) (fun y => if y then 0 else 1) 1 (1 / 2 : ℝ) fuel [b] θ0 1 c) = none := by
  cases fuel with
  | zero => rfl
  | succ fuel =>
    rw [rejectLoop_step _ _ _ _ _ _ _ _ _ (by norm_num)]
    have : bitTrial team [b] = ([], b, none) := by cases team <;> rfl
    rw [this]
    exact bit_empty _ _ _ _

theorem bit_hit (team : Bool) (b : Bool) (l : List Bool) (θ0 : Option Bool) (c fuel : Nat) :
    returned (rejectLoop (bitTrial team) (fun y => if y then 0 else 1) 1 (1 / 2 : ℝ) (fuel + 2) (b :: true :: l) θ0 1 c) = some (b, c + 1) := by
  rw [rejectLoop_step _ _ _ _ _ _ _ _ _ (by norm_num), rejectLoop.eq_def]
  have e1 : (bitTrial team (b :: true :: l)).2.1 = b := rfl
  have e2 : (bitTrial team (b :: true :: l)).2.2 = some true := by cases team <;> rfl
  simp only [e1, e2, Option.elim_some, if_true, gt_iff_lt]
  rw [if_neg (by norm_num)]
  rfl

theorem bit_miss (team : Bool) (b : Bool) (l : List Bool) (θ0 : Option Bool) (c fuel : Nat) :
    rejectLoop (bitTrial team) (fun y => if y then 0 else 1) 1 (1 / 2 : ℝ) (fuel + 1) (b :: false :: l) θ0 1 c =
      rejectLoop (bitTrial team) (fun y => if y then 0 else 1) 1 (1 / 2 : ℝ) fuel (if team then false :: l else l) (some b) 1 (c + 1) := by
  rw [rejectLoop_step _ _ _ _ _ _ _ _ _ (by norm_num)]
  cases team <;> rfl

/-- The task returns `θ` when it starts with the bits `l`, in words: with a team, the data of one trial are the parameter of the next. -/
def teamReturns (θ : Bool) : Bool → List Bool → Bool
  | _, [] => false
  | b, true :: _ => b == θ
  | _, false :: l => teamReturns θ false l

/-- The same with one process. -/
def soloReturns (θ : Bool) : List Bool → Bool
  | b :: true :: _ => b == θ
  | _ :: false :: l => soloReturns θ l
  | _ => false

theorem bit_team (θ b : Bool) (l : List Bool) (θ0 : Option Bool) (c fuel : Nat) (hf : l.length + 2 ≤ fuel) :
    (∃ c', returned (rejectLoop (bitTrial true) (fun y => if y then 0 else 1) 1 (1 / 2 : ℝ) fuel (b :: l) θ0 1 c) = some (θ, c')) ↔ teamReturns θ b l = true := by
  induction l generalizing b θ0 c fuel with
  | nil => simp only [bit_single, teamReturns]; simp
  | cons y l ih =>
    obtain ⟨fuel, rfl⟩ : ∃ m, fuel = m + 2 := ⟨fuel - 2, by simp at hf; omega⟩
    simp only [List.length_cons] at hf
    cases y with
    | true => simp only [bit_hit, teamReturns]; simp
    | false =>
      rw [bit_miss]
      exact ih false (some b) (c + 1) (fuel + 1) (by omega)

theorem bit_solo (θ : Bool) (l : List Bool) (θ0 : Option Bool) (c fuel : Nat) (hf : l.length + 2 ≤ fuel) :
    (∃ c', returned (rejectLoop (bitTrial false) (fun y => if y then 0 else 1) 1 (1 / 2 : ℝ) fuel l θ0 1 c) = some (θ, c')) ↔ soloReturns θ l = true := by
  induction hn : l.length using Nat.strong_induction_on generalizing θ0 c fuel l with
  | _ n ih =>
    match l, hf with
    | [], _ => simp only [bit_empty, soloReturns]; simp
    | [b], _ => simp only [bit_single, soloReturns]; simp
    | b :: y :: l, hf =>
      obtain ⟨fuel, rfl⟩ : ∃ m, fuel = m + 2 := ⟨fuel - 2, by simp at hf; omega⟩
      simp only [List.length_cons] at hf hn
      cases y with
      | true => simp only [bit_hit, soloReturns]; simp
      | false =>
        rw [bit_miss]
        exact ih l.length (by omega) l (some b) (c + 1) (fuel + 1) (by omega) rfl

theorem team_chance (n : Nat) (θ : Bool) : bitChance true (n + 1) θ =
    (prob [true, false] fair n (teamReturns θ true) + prob [true, false] fair n (teamReturns θ false)) / 2 := by
  classical
  rw [bitChance, prob_succ]
  simp only [List.map_cons, List.map_nil, List.sum_cons, List.sum_nil]
  have key : ∀ b, (prob [true, false] fair n fun l =>
      decide (∃ c, returned (rejectTask (bitTrial true) (fun y => if y then 0 else 1) 1 (1 / 2 : ℝ) (n + 1 + 2) (b :: l)) = some (θ, c))) = prob [true, false] fair n (teamReturns θ b) := by
    intro b
    apply prob_congr
    intro l hl
    rw [Bool.eq_iff_iff, decide_eq_true_iff]
    exact bit_team θ b l none 0 _ (by omega)
  have k1 := key true
  have k2 := key false
  simp only [fair] at k1 k2 ⊢
  convert congrArg₂ (fun a b : ℝ => (a + b) / 2) k1 k2 using 1
  ring_nf

theorem prob_false (n : Nat) : prob [true, false] fair n (fun _ => false) = 0 := by
  induction n with
  | zero => simp [prob_zero]
  | succ n ih => rw [prob_succ]; simp [ih]

theorem prob_const (n : Nat) (b : Bool) : prob [true, false] fair n (fun _ => b) = if b then 1 else 0 := by
  cases b with
  | false => simp [prob_false]
  | true => simp [prob_true [true, false] fair (by norm_num [fair]) n]

theorem team_succ (n : Nat) (θ b : Bool) : prob [true, false] fair (n + 1) (teamReturns θ b) =
    (if b = θ then 1 else 0) / 2 + prob [true, false] fair n (teamReturns θ false) / 2 := by
  rw [prob_succ]
  simp only [List.map_cons, List.map_nil, List.sum_cons, List.sum_nil, teamReturns, prob_const, beq_iff_eq, fair]
  ring

theorem team_false_true (n : Nat) : prob [true, false] fair n (teamReturns true false) = 0 := by
  induction n with
  | zero => simp [prob_zero, teamReturns]
  | succ n ih => rw [team_succ, ih]; simp

theorem team_false_false (n : Nat) : prob [true, false] fair n (teamReturns false false) = 1 - (1 / 2) ^ n := by
  induction n with
  | zero => simp [prob_zero, teamReturns]
  | succ n ih => rw [team_succ, ih, pow_succ]; simp; ring

/-- **C141 is violated: rejection sampling.** Parameter and data are independent fair bits, so both values of the parameter are equally likely given the data. With several processes per model a task with `n + 2`
random bits returns `true` with probability 1/4 and `false` with probability close to 3/4. -/
theorem C141_rejection_violated (n : Nat) : bitChance true (n + 2) true = 1 / 4 ∧ bitChance true (n + 2) false = 3 / 4 - (1 / 2) ^ (n + 1) := by
  constructor
  · rw [team_chance, team_succ, team_succ, team_false_true]
    norm_num
  · rw [team_chance, team_succ, team_succ, team_false_false, pow_succ]
    norm_num
    ring

theorem solo_chance (n : Nat) (θ : Bool) : bitChance false n θ = prob [true, false] fair n (soloReturns θ) := by
  classical
  rw [bitChance]
  apply prob_congr
  intro l hl
  rw [Bool.eq_iff_iff, decide_eq_true_iff]
  exact bit_solo θ l none 0 _ (by omega)

/-- The same call with one process per model: both values are equally likely, and the task returns unless all data are `false`. -/
theorem C141_rejection (n : Nat) (θ : Bool) : bitChance false (2 * n) θ = (1 - (1 / 2) ^ n) / 2 := by
  rw [solo_chance]
  induction n with
  | zero => simp [prob_zero, soloReturns]
  | succ n ih =>
    rw [Nat.mul_succ, prob_succ]
    simp only [List.map_cons, List.map_nil, List.sum_cons, List.sum_nil, prob_succ, soloReturns, prob_const, beq_iff_eq, ih, pow_succ, fair]
    cases θ <;> norm_num <;> ring

end Verif.Nested
