import Mathlib.Logic.Function.Basic
import Mathlib.Data.Fin.Basic
/-
Model of a team of MPI processes that work together on one model (`process_per_model` larger than one): `abcpy/backends/mpi.py` 14-87 (`NestedParallelizationControllerMPI`), 424-480
(`BackendMPIWorker`), 496-568, 578-636 (`BackendMPILeader`). The scheduler, and how it hands out the items, is in `Verif.Mpi`; here it is the list of commands that the leader receives.
-/
namespace Verif.Nested

/-- The collective operations on the communicator of the team: `barrier`, `bcast` from the leader, `bcast` on the world communicator, and those which a simulator calls itself, by number. -/
inductive Coll
  | barrier
  | bcast
  | world
  | user (tag : Nat)
deriving DecidableEq

/-- What is sent. Python objects (functions, arguments, items, values) are of one type `Obj`; a pickled object is a copy of the object. -/
inductive Msg (Obj : Type)
  | nothing
  | flag (b : Bool)
  | cmd (op id : Nat)
  | obj (o : Obj)
deriving DecidableEq

/-- What a process does until the program ends with a value: it enters a collective operation with what it sends, and goes on with what it receives. -/
inductive Prog (Obj A : Type)
  | done (a : A)
  | op (c : Coll) (send : Msg Obj) (next : Msg Obj → Prog Obj A)

variable {Obj A B C D E : Type}

/-- First one program, then another. -/
def Prog.bind : Prog Obj A → (A → Prog Obj B) → Prog Obj B
  | .done a, k => k a
  | .op c s next, k => .op c s fun m => (next m).bind k

/-- What the processes of a team receive: the leader (`none`) and `n` workers. `sem` describes the operations that simulators use (all-reduce, gather and so on). -/
def deliver {n : Nat} (sem : Nat → Msg Obj → (Fin n → Msg Obj) → Option (Fin n) → Msg Obj) (c : Coll) (s : Msg Obj) (ws : Fin n → Msg Obj) (rank : Option (Fin n)) : Msg Obj :=
  match c with
  | .barrier => .nothing
  | .bcast => s
  | .world => s
  | .user tag => sem tag s ws rank

/-- A team runs: every collective operation takes place when all processes have entered the same one. The run ends when all have ended. There is no run if a process ends while another waits, or if two
processes are in different operations. -/
inductive Run {n : Nat} (sem : Nat → Msg Obj → (Fin n → Msg Obj) → Option (Fin n) → Msg Obj) : Prog Obj A → (Fin n → Prog Obj B) → A → (Fin n → B) → Prop
  | done (a : A) (b : Fin n → B) : Run sem (.done a) (fun i => .done (b i)) a b
  | step (c : Coll) (s : Msg Obj) (next : Msg Obj → Prog Obj A) (ws : Fin n → Msg Obj) (wnext : Fin n → Msg Obj → Prog Obj B) (a : A) (b : Fin n → B)
      (h : Run sem (next (deliver sem c s ws none)) (fun i => wnext i (deliver sem c s ws (some i))) a b) :
      Run sem (.op c s next) (fun i => .op c (ws i) (wnext i)) a b

/-- A call of `run_nested`: function, arguments, keyword arguments. -/
abbrev Call (Obj : Type) := Obj × Obj × Obj

/-- What the function given to `map` does with an item on the leader: it returns, raises, or calls `run_nested` and goes on with the result or the exception. -/
inductive User (Obj E : Type)
  | ret (r : Obj)
  | raise (e : E)
  | nested (call : Call Obj) (next : Except E Obj → User Obj E)

/-- The operation codes, mpi.py 411. -/
def opMap : Nat := 2
def opBroadcast : Nat := 4
def opFinish : Nat := 7

/-! ### The controller -/

/-- `run_nested` on the leader, mpi.py 67-78 with 30-62: `body` is the program of the function on the leader. If the function raises, the second barrier of line 60 is not reached. -/
def runNested (body : Call Obj → Prog Obj (Except E Obj)) (call : Call Obj) : Prog Obj (Except E Obj) :=
  .op .barrier .nothing fun _ => .op .bcast (.flag true) fun _ =>
  .op .bcast (.obj call.1) fun _ => .op .bcast (.obj call.2.1) fun _ => .op .bcast (.obj call.2.2) fun _ =>
  .op .barrier .nothing fun _ => (body call).bind fun
    | .ok r => .op .barrier .nothing fun _ => .done (.ok r)
    | .error e => .done (.error e)

/-- How `nested_execution` ends on a worker: by the flag, by an exception of the function, by something else than was expected, or not within the bound. -/
inductive Stop
  | told
  | raised
  | confused
  | fuel
deriving DecidableEq

/-- `nested_execution` on a worker, mpi.py 30-65: the calls that were executed are recorded. -/
def nestedLoop (body : Call Obj → Prog Obj (Except E Obj)) : Nat → List (Call Obj) → Prog Obj (List (Call Obj) × Stop)
  | 0, log => .done (log, .fuel)
  | fuel + 1, log => .op .barrier .nothing fun _ => .op .bcast .nothing fun
    | .flag false => .done (log, .told)
    | .flag true =>
      .op .bcast .nothing fun f => .op .bcast .nothing fun a => .op .bcast .nothing fun k => match f, a, k with
        | .obj f, .obj a, .obj k => .op .barrier .nothing fun _ => (body (f, a, k)).bind fun
          | .ok _ => .op .barrier .nothing fun _ => nestedLoop body fuel (log ++ [(f, a, k)])
          | .error _ => .done (log ++ [(f, a, k)], .raised)
        | _, _, _ => .done (log, .confused)
    | _ => .done (log, .confused)

/-- The rest of `run_function` on the leader, mpi.py 431-442: the controller is deleted when the function has returned or raised (80-87). -/
def runFunction (body : Call Obj → Prog Obj (Except E Obj)) : User Obj E → Prog Obj (Except E Obj)
  | .ret r => .op .barrier .nothing fun _ => .op .bcast (.flag false) fun _ => .done (.ok r)
  | .raise e => .op .barrier .nothing fun _ => .op .bcast (.flag false) fun _ => .done (.error e)
  | .nested call next => (runNested body call).bind fun r => runFunction body (next r)

/-! ### Leader and workers -/

/-- What a process holds: the broadcast values. -/
abbrev Store (Obj : Type) := Nat → Option Obj

/-- How the loop of a worker ends: by the command to finish, with the executed calls and its store; or otherwise. -/
inductive End (Obj : Type)
  | quit (log : List (Call Obj)) (store : Store Obj)
  | lost

/-- `__worker_run`, mpi.py 444-462, with `run_function` (424-442) and `broadcast` (473-478). After an exception of a nested function the worker goes on with the next command (line 439). -/
def workerLoop (body : Call Obj → Prog Obj (Except E Obj)) : Nat → List (Call Obj) → Store Obj → Prog Obj (End Obj)
  | 0, _, _ => .done .lost
  | fuel + 1, log, store => .op .bcast .nothing fun
    | .cmd op id =>
      if op = opMap then .op .bcast .nothing fun _ => .op .bcast .nothing fun _ => (nestedLoop body fuel log).bind fun
        | (log, .told) => workerLoop body fuel log store
        | (log, .raised) => workerLoop body fuel log store
        | _ => .done .lost
      else if op = opBroadcast then .op .world .nothing fun
        | .obj v => workerLoop body fuel log (Function.update store id (some v))
        | _ => .done .lost
      else if op = opFinish then .done (.quit log store)
      else .done .lost
    | _ => .done .lost

/-- A command of the scheduler to a leader: a map comes with the items that this leader gets, in order. -/
inductive Cmd (Obj : Type)
  | parallelize (id : Nat)
  | map (fn : Obj) (items : List (Nat × Obj))
  | broadcast (id : Nat) (value : Obj)
  | collect (id : Nat)
  | deletePds (id : Nat)
  | deleteBds (id : Nat)

/-- `map` of the leader with `__leader_run_function`, mpi.py 578-636. -/
def mapItems (body : Call Obj → Prog Obj (Except E Obj)) (task : Obj → Obj → User Obj E) (fn : Obj) : List (Nat × Obj) → Prog Obj (List (Nat × Except E Obj))
  | [] => .done []
  | (i, x) :: items => .op .bcast (.cmd opMap 0) fun _ => .op .bcast (.obj fn) fun _ => .op .bcast (.obj x) fun _ =>
    (runFunction body (task fn x)).bind fun r => (mapItems body task fn items).bind fun rs => .done ((i, r) :: rs)

/-- `__leader_run`, mpi.py 496-568, until the command to finish. The results are those of the maps, in order. The value of a broadcast is sent by the scheduler on the world communicator; here the leader sends
it to the team (simplification: the other teams and the scheduler are left out). -/
def leaderLoop (body : Call Obj → Prog Obj (Except E Obj)) (task : Obj → Obj → User Obj E) :
    List (Cmd Obj) → List (List (Nat × Except E Obj)) → Store Obj → Prog Obj (List (List (Nat × Except E Obj)) × Store Obj)
  | [], out, store => .op .bcast (.cmd opFinish 0) fun _ => .done (out, store)
  | .map fn items :: cs, out, store => (mapItems body task fn items).bind fun rs => leaderLoop body task cs (out ++ [rs]) store
  | .broadcast id v :: cs, out, store => .op .bcast (.cmd opBroadcast id) fun _ => .op .world (.obj v) fun _ => leaderLoop body task cs out (Function.update store id (some v))
  | .deleteBds id :: cs, out, store => leaderLoop body task cs out (Function.update store id none)
  | .parallelize _ :: cs, out, store => leaderLoop body task cs out store
  | .collect _ :: cs, out, store => leaderLoop body task cs out store
  | .deletePds _ :: cs, out, store => leaderLoop body task cs out store

end Verif.Nested
