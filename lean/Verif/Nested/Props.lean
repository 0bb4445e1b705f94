import Verif.Nested.Model
import Mathlib.Tactic.Common
/-
C140: a team of processes works in step, every process executes every nested call once, and the results are those of the leader.
-/
namespace Verif.Nested

variable {Obj A A' B B' E : Type} {n : Nat} {sem : Nat → Msg Obj → (Fin n → Msg Obj) → Option (Fin n) → Msg Obj}

/-! ### Specification -/

variable (sem) (body : Option (Fin n) → Call Obj → Prog Obj (Except E Obj)) (task : Obj → Obj → User Obj E)

/-- All processes execute the call together, none of them raises, and `r` is what the leader returns. -/
def Works (call : Call Obj) (r : Obj) : Prop :=
  ∃ rs : Fin n → Obj, Run sem (body none call) (fun i => body (some i) call) (.ok r) fun i => .ok (rs i)

/-- What a function given to `map` does if every nested call just gave the result of the leader: the calls in order, and the result or exception. -/
inductive Plain : User Obj E → List (Call Obj) → Except E Obj → Prop
  | ret (r : Obj) : Plain (.ret r) [] (.ok r)
  | raise (e : E) : Plain (.raise e) [] (.error e)
  | nested (call : Call Obj) (next : Except E Obj → User Obj E) (r : Obj) (calls : List (Call Obj)) (res : Except E Obj) (h : Works sem body call r) (h' : Plain (next (.ok r)) calls res) :
      Plain (.nested call next) (call :: calls) res

/-- The same for the items of a map, each item with its own number and result. -/
inductive PlainMap (fn : Obj) : List (Nat × Obj) → List (Call Obj) → List (Nat × Except E Obj) → Prop
  | nil : PlainMap fn [] [] []
  | cons (i : Nat) (x : Obj) (items : List (Nat × Obj)) (calls calls' : List (Call Obj)) (res : Except E Obj) (rs : List (Nat × Except E Obj)) (h : Plain sem body (task fn x) calls res)
      (h' : PlainMap fn items calls' rs) : PlainMap fn ((i, x) :: items) (calls ++ calls') ((i, res) :: rs)

/-- The same for a list of commands: the nested calls in order, and the results of the maps in order. -/
inductive PlainAll : List (Cmd Obj) → List (Call Obj) → List (List (Nat × Except E Obj)) → Prop
  | nil : PlainAll [] [] []
  | map (fn : Obj) (items : List (Nat × Obj)) (cs : List (Cmd Obj)) (calls calls' : List (Call Obj)) (rs : List (Nat × Except E Obj)) (out : List (List (Nat × Except E Obj)))
      (h : PlainMap sem body task fn items calls rs) (h' : PlainAll cs calls' out) : PlainAll (.map fn items :: cs) (calls ++ calls') (rs :: out)
  | other (c : Cmd Obj) (cs : List (Cmd Obj)) (calls : List (Call Obj)) (out : List (List (Nat × Except E Obj))) (hc : ∀ fn items, c ≠ .map fn items) (h' : PlainAll cs calls out) :
      PlainAll (c :: cs) calls out

/-- The values that were broadcast, the last one for every number. -/
def broadcasts : List (Cmd Obj) → Store Obj → Store Obj
  | [], s => s
  | .broadcast id v :: cs, s => broadcasts cs (Function.update s id (some v))
  | _ :: cs, s => broadcasts cs s

/-- The values that were broadcast and not deleted since. -/
def kept : List (Cmd Obj) → Store Obj → Store Obj
  | [], s => s
  | .broadcast id v :: cs, s => kept cs (Function.update s id (some v))
  | .deleteBds id :: cs, s => kept cs (Function.update s id none)
  | _ :: cs, s => kept cs s

/-- The whole team: the leader with the commands of the scheduler, ended by the command to finish, and the workers. -/
def TeamRun (cs : List (Cmd Obj)) (fuel : Nat) (a : List (List (Nat × Except E Obj)) × Store Obj) (b : Fin n → End Obj) : Prop :=
  Run sem (leaderLoop (body none) task cs [] fun _ => none) (fun i => workerLoop (body (some i)) fuel [] fun _ => none) a b

/-! ### Runs -/

variable {sem} {body} {task}

theorem Prog.bind_assoc (p : Prog Obj A) {A'' : Type} (k : A → Prog Obj A') (l : A' → Prog Obj A'') : (p.bind k).bind l = p.bind fun a => (k a).bind l := by
  induction p with
  | done a => rfl
  | op c s next ih => simp only [Prog.bind, ih]

theorem Run.bind {p : Prog Obj A} {ps : Fin n → Prog Obj B} {a : A} {b : Fin n → B} (h : Run sem p ps a b) {k : A → Prog Obj A'} {ks : Fin n → B → Prog Obj B'} {a' : A'} {b' : Fin n → B'}
    (hk : Run sem (k a) (fun i => ks i (b i)) a' b') : Run sem (p.bind k) (fun i => (ps i).bind (ks i)) a' b' := by
  induction h with
  | done a b => exact hk
  | step c s next ws wnext a b h ih => exact Run.step c s _ ws (fun i m => (wnext i m).bind (ks i)) _ _ (ih hk)

/-- What a team in a collective operation can do. -/
theorem Run.inv_op {c : Coll} {s : Msg Obj} {next : Msg Obj → Prog Obj A} {ps : Fin n → Prog Obj B} {a : A} {b : Fin n → B} (h : Run sem (.op c s next) ps a b) :
    ∃ (ws : Fin n → Msg Obj) (wnext : Fin n → Msg Obj → Prog Obj B), ps = (fun i => .op c (ws i) (wnext i)) ∧ Run sem (next (deliver sem c s ws none)) (fun i => wnext i (deliver sem c s ws (some i))) a b := by
  cases h with
  | step c s next ws wnext a b h => exact ⟨ws, wnext, rfl, h⟩

theorem Run.inv_step {c : Coll} {s : Msg Obj} {next : Msg Obj → Prog Obj A} {ws : Fin n → Msg Obj} {wnext : Fin n → Msg Obj → Prog Obj B} {a : A} {b : Fin n → B}
    (h : Run sem (.op c s next) (fun i => .op c (ws i) (wnext i)) a b) : Run sem (next (deliver sem c s ws none)) (fun i => wnext i (deliver sem c s ws (some i))) a b := by
  obtain ⟨ws', wnext', he, h⟩ := h.inv_op
  have h1 : ws' = ws := funext fun i => by have := congrFun he i; injection this with _ e _; exact e.symm
  have h2 : wnext' = wnext := funext fun i => by have := congrFun he i; injection this with _ _ e; exact e.symm
  rwa [h1, h2] at h

theorem Run.inv_done {p : A} {ps : Fin n → Prog Obj B} {a : A} {b : Fin n → B} (h : Run sem (.done p) ps a b) : a = p ∧ ps = fun i => .done (b i) := by
  cases h with
  | done a b => exact ⟨rfl, rfl⟩

/-- After the first part, a run goes on with what the first part gave. -/
theorem Run.after {p : Prog Obj A} {ps : Fin n → Prog Obj B} {a : A} {b : Fin n → B} (h : Run sem p ps a b) {k : A → Prog Obj A'} {ks : Fin n → B → Prog Obj B'} {a' : A'} {b' : Fin n → B'}
    (hr : Run sem (p.bind k) (fun i => (ps i).bind (ks i)) a' b') : Run sem (k a) (fun i => ks i (b i)) a' b' := by
  induction h with
  | done a b => exact hr
  | step c s next ws wnext a b h ih => exact ih hr.inv_step

/-- A team has at most one result. -/
theorem Run.unique {p : Prog Obj A} {ps : Fin n → Prog Obj B} {a a' : A} {b b' : Fin n → B} (h : Run sem p ps a b) (h' : Run sem p ps a' b') : a' = a ∧ b' = b := by
  induction h with
  | done a b =>
    obtain ⟨h1, h2⟩ := h'.inv_done
    refine ⟨h1, funext fun i => ?_⟩
    have := congrFun h2 i
    injection this with e
    exact e.symm
  | step c s next ws wnext a b h ih => exact ih h'.inv_step

/-! ### The protocol -/

theorem run_nested {call : Call Obj} {r : Obj} (h : Works sem body call r) (fuel : Nat) (log : List (Call Obj)) {k : Except E Obj → Prog Obj A} {ks : Fin n → List (Call Obj) × Stop → Prog Obj B} {a : A} {b : Fin n → B}
    (hk : Run sem (k (.ok r)) (fun i => (nestedLoop (body (some i)) fuel (log ++ [call])).bind (ks i)) a b) :
    Run sem ((runNested (body none) call).bind k) (fun i => (nestedLoop (body (some i)) (fuel + 1) log).bind (ks i)) a b := by
  obtain ⟨rs, h⟩ := h
  refine Run.step .barrier .nothing _ (fun _ => .nothing) _ _ _ ?_
  refine Run.step .bcast (.flag true) _ (fun _ => .nothing) _ _ _ ?_
  refine Run.step .bcast (.obj call.1) _ (fun _ => .nothing) _ _ _ ?_
  refine Run.step .bcast (.obj call.2.1) _ (fun _ => .nothing) _ _ _ ?_
  refine Run.step .bcast (.obj call.2.2) _ (fun _ => .nothing) _ _ _ ?_
  refine Run.step .barrier .nothing _ (fun _ => .nothing) _ _ _ ?_
  simp only [Prog.bind_assoc]
  refine h.bind (ks := fun i (x : Except E Obj) => Prog.bind (match x with
    | .ok _ => .op .barrier .nothing fun _ => nestedLoop (body (some i)) fuel (log ++ [call])
    | .error _ => .done (log ++ [call], .raised)) (ks i)) ?_
  exact Run.step .barrier .nothing _ (fun _ => .nothing) _ _ _ hk

theorem run_function {u : User Obj E} {calls : List (Call Obj)} {res : Except E Obj} (h : Plain sem body u calls res) (fuel : Nat) (hf : calls.length < fuel) (log : List (Call Obj))
    {k : Except E Obj → Prog Obj A} {ks : Fin n → List (Call Obj) × Stop → Prog Obj B} {a : A} {b : Fin n → B}
    (hk : Run sem (k res) (fun i => ks i (log ++ calls, .told)) a b) :
    Run sem ((runFunction (body none) u).bind k) (fun i => (nestedLoop (body (some i)) fuel log).bind (ks i)) a b := by
  induction h generalizing fuel log with
  | ret r =>
    obtain ⟨fuel, rfl⟩ : ∃ m, fuel = m + 1 := ⟨fuel - 1, by simp at hf; omega⟩
    refine Run.step .barrier .nothing _ (fun _ => .nothing) _ _ _ ?_
    refine Run.step .bcast (.flag false) _ (fun _ => .nothing) _ _ _ ?_
    rw [List.append_nil] at hk
    exact hk
  | raise e =>
    obtain ⟨fuel, rfl⟩ : ∃ m, fuel = m + 1 := ⟨fuel - 1, by simp at hf; omega⟩
    refine Run.step .barrier .nothing _ (fun _ => .nothing) _ _ _ ?_
    refine Run.step .bcast (.flag false) _ (fun _ => .nothing) _ _ _ ?_
    rw [List.append_nil] at hk
    exact hk
  | nested call next r calls res h h' ih =>
    obtain ⟨fuel, rfl⟩ : ∃ m, fuel = m + 1 := ⟨fuel - 1, by simp at hf; omega⟩
    simp only [List.length_cons, Nat.add_lt_add_iff_right] at hf
    rw [runFunction, Prog.bind_assoc]
    refine run_nested h fuel log (ih fuel hf (log ++ [call]) ?_)
    simpa using hk

/-- Enough for the loops of the workers. -/
def enough : List (Cmd Obj) → Nat
  | [] => 1
  | .map _ items :: cs => items.length + enough cs
  | _ :: cs => 1 + enough cs

theorem run_map {fn : Obj} {items : List (Nat × Obj)} {calls : List (Call Obj)} {rs : List (Nat × Except E Obj)} (h : PlainMap sem body task fn items calls rs) (fuel : Nat)
    (hf : items.length + calls.length < fuel) (log : List (Call Obj)) (store : Store Obj) {k : List (Nat × Except E Obj) → Prog Obj A} {a : A} {b : Fin n → End Obj}
    (hk : Run sem (k rs) (fun i => workerLoop (body (some i)) (fuel - items.length) (log ++ calls) store) a b) :
    Run sem ((mapItems (body none) task fn items).bind k) (fun i => workerLoop (body (some i)) fuel log store) a b := by
  induction h generalizing fuel log k with
  | nil => simpa [mapItems, Prog.bind] using hk
  | cons i x items calls calls' res rs h h' ih =>
    obtain ⟨fuel, rfl⟩ : ∃ m, fuel = m + 1 := ⟨fuel - 1, by simp at hf; omega⟩
    simp only [List.length_cons, List.length_append] at hf
    refine Run.step .bcast (.cmd opMap 0) _ (fun _ => .nothing) _ _ _ ?_
    refine Run.step .bcast (.obj fn) _ (fun _ => .nothing) _ _ _ ?_
    refine Run.step .bcast (.obj x) _ (fun _ => .nothing) _ _ _ ?_
    simp only [Prog.bind_assoc]
    refine run_function h fuel (by omega) log ?_
    refine ih fuel (by omega) (log ++ calls) ?_
    simpa [Prog.bind] using hk

theorem run_commands {cs : List (Cmd Obj)} {calls : List (Call Obj)} {out : List (List (Nat × Except E Obj))} (h : PlainAll sem body task cs calls out) (fuel : Nat)
    (hf : enough cs + calls.length < fuel) (log : List (Call Obj)) (out' : List (List (Nat × Except E Obj))) (store store' : Store Obj) :
    Run sem (leaderLoop (body none) task cs out' store) (fun i => workerLoop (body (some i)) fuel log store') (out' ++ out, kept cs store)
      fun _ => .quit (log ++ calls) (broadcasts cs store') := by
  induction h generalizing fuel log out' store store' with
  | nil =>
    obtain ⟨fuel, rfl⟩ : ∃ m, fuel = m + 1 := ⟨fuel - 1, by simp at hf; omega⟩
    refine Run.step .bcast (.cmd opFinish 0) _ (fun _ => .nothing) _ _ _ ?_
    simp only [List.append_nil, deliver, kept, broadcasts]
    exact Run.done _ _
  | map fn items cs calls calls' rs out h h' ih =>
    simp only [enough, List.length_append] at hf
    refine run_map h fuel (by omega) log store' ?_
    have := ih (fuel - items.length) (by omega) (log ++ calls) (out' ++ [rs]) store store'
    simpa [kept, broadcasts] using this
  | other c cs calls out hc h' ih =>
    cases c with
    | map fn items => exact absurd rfl (hc fn items)
    | broadcast id v =>
      simp only [enough] at hf
      obtain ⟨fuel, rfl⟩ : ∃ m, fuel = m + 1 := ⟨fuel - 1, by omega⟩
      refine Run.step .bcast (.cmd opBroadcast id) _ (fun _ => .nothing) _ _ _ ?_
      refine Run.step .world (.obj v) _ (fun _ => .nothing) _ _ _ ?_
      exact ih fuel (by omega) log out' _ _
    | deleteBds id => exact ih fuel (by simp only [enough] at hf; omega) log out' _ _
    | parallelize id => exact ih fuel (by simp only [enough] at hf; omega) log out' _ _
    | collect id => exact ih fuel (by simp only [enough] at hf; omega) log out' _ _
    | deletePds id => exact ih fuel (by simp only [enough] at hf; omega) log out' _ _

/-- **C140.** For every number of processes and every list of commands whose nested calls raise in no process: the team works in step until all processes have finished. The leader ends with the results that
the functions give when the nested calls return what the leader computes (an exception which the function itself raises is a result), and every worker has executed every nested call exactly once, in order, and holds all
values that were broadcast. There is no other result. -/
theorem C140_partial {cs : List (Cmd Obj)} {calls : List (Call Obj)} {out : List (List (Nat × Except E Obj))} (h : PlainAll sem body task cs calls out) :
    ∃ N, ∀ fuel, N ≤ fuel →
      TeamRun sem body task cs fuel (out, kept cs fun _ => none) (fun _ => .quit calls (broadcasts cs fun _ => none)) ∧
      ∀ a b, TeamRun sem body task cs fuel a b → a = (out, kept cs fun _ => none) ∧ b = fun _ => .quit calls (broadcasts cs fun _ => none) := by
  refine ⟨enough cs + calls.length + 1, fun fuel hf => ?_⟩
  have := run_commands h fuel (by omega) [] [] (fun _ => none) fun _ => none
  simp only [List.nil_append] at this
  exact ⟨this, fun a b h' => this.unique h'⟩

/-! ### Exceptions -/

theorem mismatch {c c' : Coll} {s : Msg Obj} {next : Msg Obj → Prog Obj A} {ps : Fin n → Prog Obj B} {a : A} {b : Fin n → B} (hc : c ≠ c') {j : Fin n}
    (hj : ∃ s' next', ps j = .op c' s' next') : ¬ Run sem (.op c s next) ps a b := by
  intro h
  obtain ⟨ws, wnext, he, _⟩ := h.inv_op
  obtain ⟨s', next', hj⟩ := hj
  rw [he] at hj
  injection hj with e
  exact hc e

theorem runFunction_barrier (body : Call Obj → Prog Obj (Except E Obj)) (u : User Obj E) (k : Except E Obj → Prog Obj A) :
    ∃ b next, (runFunction body u).bind k = .op .barrier .nothing fun _ => .op .bcast (.flag b) next := by
  cases u with
  | ret r => exact ⟨false, _, rfl⟩
  | raise e => exact ⟨false, _, rfl⟩
  | nested call next => exact ⟨true, _, rfl⟩

/-- What a worker does after the function of a nested call, here the first of an item. -/
def workerAfter (body : Call Obj → Prog Obj (Except E Obj)) (fuel : Nat) (log : List (Call Obj)) (store : Store Obj) (call : Call Obj) (x : Except E Obj) : Prog Obj (End Obj) :=
  Prog.bind (match x with
    | .ok _ => .op .barrier .nothing fun _ => nestedLoop body fuel (log ++ [call])
    | .error _ => .done (log ++ [call], .raised)) fun
    | (log, .told) => workerLoop body (fuel + 1) log store
    | (log, .raised) => workerLoop body (fuel + 1) log store
    | _ => .done .lost

/-- **C140 is violated by exceptions.** If a nested call raises an exception in any process of a team of two or more, the team never finishes, whatever the function does with the exception (`next`), whatever comes later
(`items`, `cs`), and however long one waits: processes are left in different collective operations. -/
theorem C140_exception_violated (call : Call Obj) (a : Except E Obj) (b : Fin n → Except E Obj) (h : Run sem (body none call) (fun i => body (some i) call) a b) (hn : 0 < n)
    (he : (∃ e, a = .error e) ∨ ∃ (i : Fin n) (e : E), b i = .error e) (fn x : Obj) (next : Except E Obj → User Obj E) (ht : task fn x = .nested call next) (i : Nat) (items : List (Nat × Obj)) (cs : List (Cmd Obj))
    (fuel : Nat) (a' : List (List (Nat × Except E Obj)) × Store Obj) (b' : Fin n → End Obj) : ¬ TeamRun sem body task (.map fn ((i, x) :: items) :: cs) fuel a' b' := by
  intro hr
  rw [TeamRun, leaderLoop, mapItems] at hr
  cases fuel with
  | zero =>
    obtain ⟨ws, wnext, e, _⟩ := hr.inv_op
    have := congrFun e ⟨0, hn⟩
    simp [workerLoop] at this
  | succ fuel =>
    have h1 := hr.inv_step.inv_step.inv_step
    simp only [Prog.bind_assoc, ht, runFunction] at h1
    cases fuel with
    | zero =>
      obtain ⟨ws, wnext, e, _⟩ := h1.inv_op
      have := congrFun e ⟨0, hn⟩
      simp [nestedLoop, workerLoop, Prog.bind] at this
    | succ fuel =>
      have h2 := h1.inv_step.inv_step.inv_step.inv_step.inv_step.inv_step
      simp only [Prog.bind_assoc] at h2
      have h3 := h.after (ks := fun i => workerAfter (body (some i)) fuel [] (fun _ => none) call) h2
      cases a with
      | ok r =>
        rcases he with ⟨e, he⟩ | ⟨j, e, hj⟩
        · simp at he
        · exact mismatch (c' := .bcast) (by decide) (j := j) (by rw [hj]; exact ⟨_, _, rfl⟩) h3
      | error e =>
        obtain ⟨fl, nx, hb⟩ := runFunction_barrier (body none) (next (.error e)) fun r => (mapItems (body none) task fn items).bind fun rs =>
          (Prog.done ((i, r) :: rs)).bind fun rs => leaderLoop (body none) task cs ([] ++ [rs]) fun _ => none
        have h4 : Run sem (.op .barrier .nothing fun _ => .op .bcast (.flag fl) nx) (fun i => workerAfter (body (some i)) fuel [] (fun _ => none) call (b i)) a' b' := hb ▸ h3
        cases hj : b ⟨0, hn⟩ with
        | error e' => exact mismatch (c' := .bcast) (by decide) (j := ⟨0, hn⟩) (by rw [hj]; exact ⟨_, _, rfl⟩) h4
        | ok r =>
          obtain ⟨ws, wnext, e1, h5⟩ := h4.inv_op
          have e2 := congrFun e1 ⟨0, hn⟩
          rw [hj] at e2
          simp only [workerAfter, Prog.bind] at e2
          injection e2 with _ _ e3
          cases fuel with
          | zero =>
            obtain ⟨ws', wnext', e4, _⟩ := h5.inv_op
            have e5 := congrFun e4 ⟨0, hn⟩
            simp only [← e3, nestedLoop, Prog.bind] at e5
            cases e5
          | succ fuel =>
            refine mismatch (c' := .barrier) (by decide) (j := ⟨0, hn⟩) ?_ h5
            rw [← e3]
            exact ⟨_, _, rfl⟩

end Verif.Nested
