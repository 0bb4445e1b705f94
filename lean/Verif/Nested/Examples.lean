import Verif.Nested.Props
import Mathlib.Algebra.BigOperators.Fin
/-
Teams that meet the hypotheses of C140, and broken ones.
-/
namespace Verif.Nested

/-- All-reduce with the sum, for numbers as objects; other operations return nothing. -/
def sumSem (n : Nat) (tag : Nat) (s : Msg Nat) (ws : Fin n → Msg Nat) (_ : Option (Fin n)) : Msg Nat :=
  let num : Msg Nat → Nat := fun
    | .obj v => v
    | _ => 0
  if tag = 0 then .obj (num s + ∑ i, num (ws i)) else .nothing

/-- A simulator that adds a number from every process, the product of its argument and rank: it raises on a process whose rank is `bad`. -/
def sumBody (n : Nat) (bad : Option (Option (Fin n))) (rank : Option (Fin n)) (call : Call Nat) : Prog Nat (Except String Nat) :=
  .op (.user 0) (.obj (call.2.1 * rank.elim 1 fun i => i.val + 2)) fun
    | .obj v => .done (if bad = some rank then .error "bad" else .ok v)
    | _ => .done (.error "type")

/-- A function for `map` that simulates twice, the second time with the first result, and raises for 13. -/
def twice (_ x : Nat) : User Nat String :=
  if x = 13 then .raise "unlucky" else .nested (0, x, 0) fun
    | .ok y => .nested (0, y, 0) fun
      | .ok z => .ret z
      | .error e => .raise e
    | .error e => .raise e

theorem sum_works (x : Nat) : Works (sumSem 2) (sumBody 2 none) (0, x, 0) (6 * x) := by
  refine ⟨fun _ => 6 * x, ?_⟩
  refine Run.step (.user 0) _ _ (fun i => .obj (x * (i.val + 2))) _ _ _ ?_
  have e : ∀ r, deliver (sumSem 2) (.user 0) (.obj (x * (none : Option (Fin 2)).elim 1 fun i => i.val + 2)) (fun i => .obj (x * (i.val + 2))) r = .obj (6 * x) := by
    intro r
    simp only [deliver, sumSem, if_true, Fin.sum_univ_two, Option.elim_none]
    congr 1
    simp
    omega
  simp only [e]
  exact Run.done _ _

/-- The commands of a session: one value is broadcast, two items are mapped, one of them raises. -/
def session : List (Cmd Nat) := [.broadcast 3 8, .parallelize 1, .map 5 [(1, 2), (4, 13)], .collect 2, .deleteBds 3]

theorem session_plain : PlainAll (sumSem 2) (sumBody 2 none) twice session [(0, 2, 0), (0, 12, 0)] [[(1, .ok 72), (4, .error "unlucky")]] := by
  refine .other _ _ _ _ (by simp) (.other _ _ _ _ (by simp) ?_)
  refine .map 5 _ _ [(0, 2, 0), (0, 12, 0)] [] _ [] ?_ (.other _ _ _ _ (by simp) (.other _ _ _ _ (by simp) .nil))
  refine .cons 1 2 _ [(0, 2, 0), (0, 12, 0)] [] (.ok 72) _ ?_ (.cons 4 13 _ [] [] _ _ (.raise _) .nil)
  exact .nested _ _ _ _ _ (sum_works 2) (.nested _ _ _ _ _ (sum_works 12) (.ret 72))

/-- The session ends, with these results. -/
theorem session_run : ∃ fuel, TeamRun (sumSem 2) (sumBody 2 none) twice session fuel ([[(1, .ok 72), (4, .error "unlucky")]], fun _ => none)
    fun _ => .quit [(0, 2, 0), (0, 12, 0)] (Function.update (fun _ => none) 3 (some 8)) := by
  obtain ⟨N, h⟩ := C140_partial session_plain
  refine ⟨N, ?_⟩
  have := (h N le_rfl).1
  have e : kept session (fun _ => none) = fun _ => none := by
    funext i
    simp [kept, session]
  rw [e] at this
  exact this

/-- If the simulator raises in the last process, the hypotheses of `C140_exception_violated` hold. -/
theorem bad_run : ∃ a b, Run (sumSem 2) (sumBody 2 (some (some 1)) none (0, 2, 0)) (fun i => sumBody 2 (some (some 1)) (some i) (0, 2, 0)) a b ∧ a = .ok 12 ∧ b 0 = .ok 12 ∧ b 1 = .error "bad" := by
  refine ⟨.ok 12, fun i => if i = 1 then .error "bad" else .ok 12, ?_, rfl, rfl, rfl⟩
  refine Run.step (.user 0) _ _ (fun i => .obj (2 * (i.val + 2))) _ _ _ ?_
  have e : ∀ r, deliver (sumSem 2) (.user 0) (.obj (2 * (none : Option (Fin 2)).elim 1 fun i => i.val + 2)) (fun i => .obj (2 * (i.val + 2))) r = .obj 12 := by
    intro r
    simp [deliver, sumSem, Fin.sum_univ_two]
  simp only [e]
  have e' : (fun i : Fin 2 => (Prog.done (if some (some (1 : Fin 2)) = some (some i) then .error "bad" else .ok 12) : Prog Nat (Except String Nat))) =
      fun i => .done (if i = 1 then .error "bad" else .ok 12) := by
    funext i
    simp only [Option.some.injEq, eq_comm]
  rw [e']
  exact Run.done _ _

/-- Then no session with this item ends. -/
theorem bad_session (fuel : Nat) (a : List (List (Nat × Except String Nat)) × Store Nat) (b : Fin 2 → End Nat) :
    ¬ TeamRun (sumSem 2) (sumBody 2 (some (some 1))) twice [.map 5 [(1, 2)]] fuel a b := by
  obtain ⟨a', b', h, _, _, hb⟩ := bad_run
  exact C140_exception_violated _ a' b' h (by omega) (.inr ⟨1, _, hb⟩) 5 2 _ rfl 1 [] [] fuel a b

/-- **C140, memory.** A value that was broadcast and deleted is gone from the leader, but every worker of every team keeps it until the end, because the command to delete is not passed on. -/
theorem C140_delete_violated {Obj E : Type} {n : Nat} (sem : Nat → Msg Obj → (Fin n → Msg Obj) → Option (Fin n) → Msg Obj) (body : Option (Fin n) → Call Obj → Prog Obj (Except E Obj))
    (task : Obj → Obj → User Obj E) (id : Nat) (v : Obj) :
    ∃ N, ∀ fuel, N ≤ fuel → ∀ a b, TeamRun sem body task [.broadcast id v, .deleteBds id] fuel a b →
      a.2 id = none ∧ ∀ i, ∃ log store, b i = .quit log store ∧ store id = some v := by
  obtain ⟨N, h⟩ := C140_partial (sem := sem) (body := body) (task := task) (cs := [.broadcast id v, .deleteBds id]) (.other _ _ _ _ (by simp) (.other _ _ _ _ (by simp) .nil))
  refine ⟨N, fun fuel hf a b hr => ?_⟩
  obtain ⟨rfl, rfl⟩ := (h fuel hf).2 a b hr
  exact ⟨by simp [kept], fun i => ⟨_, _, rfl, by simp [broadcasts]⟩⟩

end Verif.Nested
