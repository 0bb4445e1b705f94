import Mathlib.Logic.Function.Basic
/-
Model of one parallel `map` and of `collect` of the MPI backend, `abcpy/backends/mpi.py`.

Processes: the scheduler (rank 0 of the scheduler communicator) and `n` team leaders, numbered 0 .. n-1 here
(ranks 1 .. n there). Non-leader workers only repeat the leader's computation and are not modelled.
MPI is modelled as reliable: a request can be received by the scheduler in any order
(`recv(source=ANY_SOURCE)`), messages from the scheduler to one leader arrive in order.
Every interleaving of the processes is allowed.
-/
namespace Verif.Mpi

/-- What a leader keeps for an item: the value of `func(item)`, or the exception object that
`run_function` (mpi.py 423-442) returns in its place. -/
inductive Res (R E : Type)
  | val (r : R)
  | exc (e : E)
  deriving DecidableEq

/-- Where a leader is in `map` (mpi.py 590-629): before `sendrecv`, inside it, inside the `for chunk` loop with the
remaining `(index, item)` pairs, after the loop, or killed by an exception that left `run_function`. -/
inductive Phase (X : Type)
  | ready
  | waiting
  | computing (todo : List (Nat × X))
  | finished
  | dead (at_ : Nat × X)

/-- The global state during one map. `pending` is `pds_pending_store[pds_id]`, `requests` the messages on the way to
the scheduler as (leader, data_request), `done` the entries of `is_map_done` of the leaders, `mail w` the
messages on the way to leader `w` (`none` is the sentinel), `acc w` the list `rdd` of leader `w`, `crashed`
whether the scheduler left `orchestrate_map` by an exception. `sent` and `stops` record the items handed out and the
sentinels sent; they have no counterpart in the code. -/
structure World (X R E : Type) where
  pending : List X
  requests : List (Nat × Nat)
  done : Nat → Bool
  phase : Nat → Phase X
  mail : Nat → List (Option (List (Nat × X)))
  acc : Nat → List (Nat × Res R E)
  crashed : Bool
  sent : List (Nat × Nat × X)
  stops : List Nat

/-- The state when the scheduler enters `orchestrate_map` (mpi.py 226-240) and every leader is about to send its first
request; `stale` are requests left over from earlier maps. -/
def start {X R E : Type} (xs : List X) (stale : List (Nat × Nat)) : World X R E where
  pending := xs
  requests := stale
  done := fun _ => false
  phase := fun _ => .ready
  mail := fun _ => []
  acc := fun _ => []
  crashed := false
  sent := []
  stops := []

/-- The `for i in range(chunk_size)` loop (mpi.py 269-272): pop from the end, tag with `num_current - i`, send the whole
chunk built so far. Returns the messages sent, what is left, and whether `pop` succeeded every time. -/
def chunkLoop {X : Type} (num : Nat) : Nat → Nat → List (Nat × X) → List X → List (List (Nat × X)) →
    List (List (Nat × X)) × List X × Bool
  | 0, _, _, pending, out => (out, pending, true)
  | k + 1, i, chunk, pending, out =>
    match pending.getLast? with
    | none => (out, pending, false)
    | some x => chunkLoop num k (i + 1) (chunk ++ [(num - i, x)]) pending.dropLast (out ++ [chunk ++ [(num - i, x)]])

/-- One step of one process. `f x = none` models an exception that `run_function` cannot rebuild
(`type(e)(msg + str(e))` raising, or an exception that is not a subclass of `Exception`). -/
inductive Step {X R E : Type} (n chunk id : Nat) (f : X → Option (Res R E)) : World X R E → World X R E → Prop
  /-- Leader: the send half of `sendrecv(pds_id, 0, pds_id)`, line 615. -/
  | request (w : World X R E) (l : Nat) (hl : l < n) (h : w.phase l = .ready) :
      Step n chunk id f w { w with
        requests := w.requests ++ [(l, id)]
        phase := Function.update w.phase l .waiting }
  /-- Scheduler, loop not finished: a request of another data set is ignored, lines 252-255. -/
  | ignore (w : World X R E) (a b : List (Nat × Nat)) (l i : Nat) (hc : w.crashed = false)
      (hloop : ∃ k < n, w.done k = false) (hr : w.requests = a ++ (l, i) :: b) (hi : i ≠ id) :
      Step n chunk id f w { w with requests := a ++ b }
  /-- Scheduler: nothing left, send the sentinel, lines 263-265. -/
  | stop (w : World X R E) (a b : List (Nat × Nat)) (l : Nat) (hc : w.crashed = false)
      (hloop : ∃ k < n, w.done k = false) (hr : w.requests = a ++ (l, id) :: b) (hp : w.pending = []) :
      Step n chunk id f w { w with
        requests := a ++ b
        done := Function.update w.done l true
        mail := Function.update w.mail l (w.mail l ++ [none])
        stops := w.stops ++ [l] }
  /-- Scheduler: hand out a chunk, lines 266-272. -/
  | hand (w : World X R E) (a b : List (Nat × Nat)) (l : Nat) (hc : w.crashed = false)
      (hloop : ∃ k < n, w.done k = false) (hr : w.requests = a ++ (l, id) :: b) (hp : w.pending ≠ []) :
      Step n chunk id f w
        (let (msgs, rest, ok) := chunkLoop w.pending.length chunk 0 [] w.pending []
         { w with
           requests := a ++ b
           pending := rest
           crashed := !ok
           mail := Function.update w.mail l (w.mail l ++ msgs.map some)
           sent := w.sent ++ (msgs.flatten).map (fun e => (l, e)) })
  /-- Leader: the receive half of `sendrecv` returns the sentinel, lines 618-619. -/
  | recvStop (w : World X R E) (l : Nat) (hl : l < n) (h : w.phase l = .waiting) (m : List (Option (List (Nat × X))))
      (hm : w.mail l = none :: m) :
      Step n chunk id f w { w with
        mail := Function.update w.mail l m
        phase := Function.update w.phase l .finished }
  /-- Leader: the receive half of `sendrecv` returns a chunk. -/
  | recvChunk (w : World X R E) (l : Nat) (hl : l < n) (h : w.phase l = .waiting) (c : List (Nat × X))
      (m : List (Option (List (Nat × X)))) (hm : w.mail l = some c :: m) :
      Step n chunk id f w { w with
        mail := Function.update w.mail l m
        phase := Function.update w.phase l (.computing c) }
  /-- Leader: compute one item, lines 622-625. -/
  | compute (w : World X R E) (l : Nat) (hl : l < n) (i : Nat) (x : X) (todo : List (Nat × X))
      (h : w.phase l = .computing ((i, x) :: todo)) (r : Res R E) (hf : f x = some r) :
      Step n chunk id f w { w with
        acc := Function.update w.acc l (w.acc l ++ [(i, r)])
        phase := Function.update w.phase l (.computing todo) }
  /-- Leader: an exception leaves `run_function`, the process ends. -/
  | die (w : World X R E) (l : Nat) (hl : l < n) (i : Nat) (x : X) (todo : List (Nat × X))
      (h : w.phase l = .computing ((i, x) :: todo)) (hf : f x = none) :
      Step n chunk id f w { w with phase := Function.update w.phase l (.dead (i, x)) }
  /-- Leader: end of the `for chunk` loop, back to the top of the `while`. -/
  | again (w : World X R E) (l : Nat) (hl : l < n) (h : w.phase l = .computing []) :
      Step n chunk id f w { w with phase := Function.update w.phase l .ready }

/-- An execution of `k` steps. -/
inductive Steps {X R E : Type} (n chunk id : Nat) (f : X → Option (Res R E)) : Nat → World X R E → World X R E → Prop
  | refl (w) : Steps n chunk id f 0 w w
  | tail {k w w' w''} : Steps n chunk id f k w w' → Step n chunk id f w' w'' → Steps n chunk id f (k + 1) w w''

/-- `gather` (mpi.py 328 and 648): the scheduler's own list is empty, then the leaders' lists in rank order. -/
def gathered {X R E : Type} (n : Nat) (w : World X R E) : List (Nat × Res R E) :=
  (List.range n).flatMap w.acc

/-- `np.argsort(keys)`: some list of positions, each once, along which the keys do not decrease. -/
def IsArgsort (argsort : List Nat → List Nat) : Prop :=
  ∀ keys, (argsort keys).Perm (List.range keys.length) ∧
    ((argsort keys).map fun i => keys[i]?).Pairwise fun a b => ∀ x y, a = some x → b = some y → x ≤ y

/-- The accumulation loop of `collect` (mpi.py 333-338): raises the first exception object it meets. -/
def accumulate {R E : Type} : List (Nat × Res R E) → Except E (List Nat × List R)
  | [] => .ok ([], [])
  | (_, .exc e) :: _ => .error e
  | (i, .val r) :: rest =>
    match accumulate rest with
    | .error e => .error e
    | .ok (is, rs) => .ok (i :: is, r :: rs)

/-- `collect` (mpi.py 308-343) on the gathered data. -/
def collect {R E : Type} (argsort : List Nat → List Nat) (data : List (Nat × Res R E)) : Except E (List R) :=
  match accumulate data with
  | .error e => .error e
  | .ok (is, rs) => .ok ((argsort is).filterMap fun i => rs[i]?)

/-- `BackendDummy.collect(BackendDummy.map(f, xs))`, base.py 161-196. -/
def sequential {X R : Type} (f : X → R) (xs : List X) : List R := xs.map f

end Verif.Mpi
