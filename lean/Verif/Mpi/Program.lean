import Verif.Mpi.Props
/-
Programs of backend calls: `parallelize`, `map`, `collect`, `broadcast`, `value` and the deletions made by the
destructors, for the MPI backend (`abcpy/backends/mpi.py`) and for the sequential one (`abcpy/backends/base.py` 122-217).

A program refers to a distributed data set by the position of the call that created it (0 for the first
`parallelize` or `map`, and so on), as a Python program does through its variables; in the same way for broadcast data.
-/
namespace Verif.Mpi

variable {V E : Type}

/-- A backend call. A mapped function may read broadcast data, which it receives as its first argument. -/
inductive Op (V E : Type)
  | parallelize (xs : List V)
  | map (f : (Nat → Option V) → V → Res V E) (src : Nat)
  | collect (src : Nat)
  | broadcast (v : V)
  | value (b : Nat)
  | delPds (h : Nat)
  | delBds (b : Nat)

/-- What the caller sees. `broken`: the backend itself fails (a `KeyError`, an `AttributeError` in a leader that
leaves the others waiting). -/
inductive Out (V E : Type)
  | unit
  | list (xs : List V)
  | val (v : V)
  | raised (e : E)
  | broken

/-- State of the MPI backend between two calls. `curPds`, `curBds` are the counters of mpi.py 166-192, `pds` the
scheduler's `pds_store`, `lpds l` the `pds_store` of leader `l` (the inner `none` is Python's `None`), `bds` and
`tbds` the broadcast stores of the scheduler and of the teams (all teams take part in the same collective call, so one
store stands for all of them), `net` the requests still on the way to the scheduler. `objs` are the ids of the data
sets returned to the program, in the order of creation; `alive` tells which of them have not been destroyed. -/
structure MState (V E : Type) where
  curPds : Nat
  curBds : Nat
  pds : Nat → Option (List V)
  lpds : Nat → Nat → Option (Option (List (Nat × Res V E)))
  bds : Nat → Option V
  tbds : Nat → Option V
  net : List (Nat × Nat)
  objs : List Nat
  alive : Nat → Bool
  bobjs : List Nat
  balive : Nat → Bool

/-- The state after construction, mpi.py 108-123 and 516-517. -/
def MState.init : MState V E where
  curPds := 0
  curBds := 0
  pds := fun _ => none
  lpds := fun _ _ => none
  bds := fun _ => none
  tbds := fun _ => none
  net := []
  objs := []
  alive := fun _ => true
  bobjs := []
  balive := fun _ => true

/-- How a mapped function running on a team reads the broadcast data number `b` (`BDSMPI.value`, mpi.py 757-761). -/
def MState.read (m : MState V E) (b : Nat) : Option V := m.bobjs[b]?.bind m.tbds

/-- One call on the MPI backend with `n` leaders. Destroyed data sets cannot be used. -/
inductive MStep (n : Nat) (argsort : List Nat → List Nat) : MState V E → Op V E → MState V E → Out V E → Prop
  /-- mpi.py 194-224 and 523-527. -/
  | parallelize (m : MState V E) (xs : List V) :
      MStep n argsort m (.parallelize xs) { m with
        curPds := m.curPds + 1
        pds := Function.update m.pds (m.curPds + 1) (some xs)
        lpds := fun l => Function.update (m.lpds l) (m.curPds + 1) (some none)
        objs := m.objs ++ [m.curPds + 1] } .unit
  /-- mpi.py 274-306, 530-539. The map itself is any execution of the processes that has come to rest. -/
  | map (m : MState V E) (f : (Nat → Option V) → V → Res V E) (src id : Nat) (xs : List V) (k : Nat) (w : World V V E)
      (hid : m.objs[src]? = some id) (ha : m.alive src = true) (hxs : m.pds id = some xs)
      (hrun : Steps n 1 id (fun x => some (f m.read x)) k (start xs m.net) w)
      (hst : Stuck n 1 id (fun x => some (f m.read x)) w) :
      MStep n argsort m (.map f src) { m with
        curPds := m.curPds + 1
        lpds := fun l => Function.update (m.lpds l) (m.curPds + 1) (some (some (w.acc l)))
        net := w.requests
        objs := m.objs ++ [m.curPds + 1] } .unit
  /-- `self.pds_store[pds_id]` raises `KeyError`, line 240. -/
  | mapBroken (m : MState V E) (f : (Nat → Option V) → V → Res V E) (src id : Nat)
      (hid : m.objs[src]? = some id) (ha : m.alive src = true) (hxs : m.pds id = none) :
      MStep n argsort m (.map f src) { m with curPds := m.curPds + 1 } .broken
  /-- mpi.py 308-343 and 547-553. -/
  | collectOk (m : MState V E) (src id : Nat) (acc : Nat → List (Nat × Res V E)) (r : List V)
      (hid : m.objs[src]? = some id) (ha : m.alive src = true) (hacc : ∀ l < n, m.lpds l id = some (some (acc l)))
      (hr : Verif.Mpi.collect argsort ((List.range n).flatMap acc) = .ok r) :
      MStep n argsort m (.collect src) m (.list r)
  | collectRaise (m : MState V E) (src id : Nat) (acc : Nat → List (Nat × Res V E)) (e : E)
      (hid : m.objs[src]? = some id) (ha : m.alive src = true) (hacc : ∀ l < n, m.lpds l id = some (some (acc l)))
      (hr : Verif.Mpi.collect argsort ((List.range n).flatMap acc) = .error e) :
      MStep n argsort m (.collect src) m (.raised e)
  /-- A leader has no such entry, or has `None` and fails on `pds.python_list`, line 648. -/
  | collectBroken (m : MState V E) (src id l : Nat)
      (hid : m.objs[src]? = some id) (ha : m.alive src = true) (hl : l < n)
      (hacc : m.lpds l id = none ∨ m.lpds l id = some none) :
      MStep n argsort m (.collect src) m .broken
  /-- mpi.py 345-358, 473-478, 751-755. -/
  | broadcast (m : MState V E) (v : V) :
      MStep n argsort m (.broadcast v) { m with
        curBds := m.curBds + 1
        bds := Function.update m.bds (m.curBds + 1) (some v)
        tbds := Function.update m.tbds (m.curBds + 1) (some v)
        bobjs := m.bobjs ++ [m.curBds + 1] } .unit
  /-- mpi.py 757-761 on the scheduler. -/
  | value (m : MState V E) (b id : Nat) (v : V) (hid : m.bobjs[b]? = some id) (ha : m.balive b = true)
      (hv : m.bds id = some v) : MStep n argsort m (.value b) m (.val v)
  | valueBroken (m : MState V E) (b id : Nat) (hid : m.bobjs[b]? = some id) (ha : m.balive b = true)
      (hv : m.bds id = none) : MStep n argsort m (.value b) m .broken
  /-- `PDSMPI.__del__`, mpi.py 734-743, 360-372, 555-557: only the leaders forget the data. -/
  | delPds (m : MState V E) (h id : Nat) (hid : m.objs[h]? = some id) (ha : m.alive h = true)
      (hl : ∀ l < n, m.lpds l id ≠ none) :
      MStep n argsort m (.delPds h) { m with
        lpds := fun l => Function.update (m.lpds l) id none
        alive := Function.update m.alive h false } .unit
  | delPdsBroken (m : MState V E) (h id l : Nat) (hid : m.objs[h]? = some id) (ha : m.alive h = true) (hl : l < n)
      (hn : m.lpds l id = none) : MStep n argsort m (.delPds h) m .broken
  /-- `BDSMPI.__del__`, mpi.py 763-773, 374-390, 559-561. -/
  | delBds (m : MState V E) (b id : Nat) (hid : m.bobjs[b]? = some id) (ha : m.balive b = true)
      (h1 : m.bds id ≠ none) (h2 : m.tbds id ≠ none) :
      MStep n argsort m (.delBds b) { m with
        bds := Function.update m.bds id none
        tbds := Function.update m.tbds id none
        balive := Function.update m.balive b false } .unit
  | delBdsBroken (m : MState V E) (b id : Nat) (hid : m.bobjs[b]? = some id) (ha : m.balive b = true)
      (h : m.bds id = none ∨ m.tbds id = none) : MStep n argsort m (.delBds b) m .broken

/-- A run of a program on the MPI backend with what the caller sees; it ends early at a `broken` call. -/
inductive MRun (n : Nat) (argsort : List Nat → List Nat) : MState V E → List (Op V E) → List (Out V E) → MState V E → Prop
  | nil (m) : MRun n argsort m [] [] m
  | cons {m op m1 o ops os m2} : MStep n argsort m op m1 o → o ≠ .broken → MRun n argsort m1 ops os m2 →
      MRun n argsort m (op :: ops) (o :: os) m2
  | broken {m op m1 ops} : MStep n argsort m op m1 .broken → MRun n argsort m (op :: ops) [.broken] m1

/-! ### The specification -/

/-- What a distributed data set stands for: the list it was made from, or the results of the mapped function, in the
order of the source. -/
inductive Content (V E : Type)
  | src (xs : List V)
  | res (rs : List (Res V E))

/-- Ideal state: every data set keeps the content it got when it was created. -/
structure SState (V E : Type) where
  data : List (Content V E)
  alive : Nat → Bool
  bdata : List V
  balive : Nat → Bool

def SState.init : SState V E := ⟨[], fun _ => true, [], fun _ => true⟩

/-- A mapped function reads broadcast data that has not been destroyed. -/
def SState.read (s : SState V E) (b : Nat) : Option V := if s.balive b then s.bdata[b]? else none

/-- Ideal calls: no identifiers, no stores, no processes. -/
inductive SStep : SState V E → Op V E → SState V E → Out V E → Prop
  | parallelize (s : SState V E) (xs) : SStep s (.parallelize xs) { s with data := s.data ++ [.src xs] } .unit
  | map (s : SState V E) (f src xs) (hd : s.data[src]? = some (.src xs)) (ha : s.alive src = true) :
      SStep s (.map f src) { s with data := s.data ++ [.res (xs.map (f s.read))] } .unit
  | collect (s : SState V E) (src) (ys : List V) (hd : s.data[src]? = some (.res (ys.map .val))) (ha : s.alive src = true) :
      SStep s (.collect src) s (.list ys)
  | raise (s : SState V E) (src rs e) (hd : s.data[src]? = some (.res rs)) (ha : s.alive src = true) (he : .exc e ∈ rs) :
      SStep s (.collect src) s (.raised e)
  | broadcast (s : SState V E) (v) : SStep s (.broadcast v) { s with bdata := s.bdata ++ [v] } .unit
  | value (s : SState V E) (b v) (hd : s.bdata[b]? = some v) (ha : s.balive b = true) : SStep s (.value b) s (.val v)
  | delPds (s : SState V E) (h) (hd : h < s.data.length) (ha : s.alive h = true) :
      SStep s (.delPds h) { s with alive := Function.update s.alive h false } .unit
  | delBds (s : SState V E) (b) (hd : b < s.bdata.length) (ha : s.balive b = true) :
      SStep s (.delBds b) { s with balive := Function.update s.balive b false } .unit

inductive SRun : SState V E → List (Op V E) → List (Out V E) → SState V E → Prop
  | nil (s) : SRun s [] [] s
  | cons {s op s1 o ops os s2} : SStep s op s1 o → SRun s1 ops os s2 → SRun s (op :: ops) (o :: os) s2

/-! ### The sequential backend -/

/-- State of a program on `BackendDummy`: the lists held by the `PDSDummy` objects and the values held by the
`BDSDummy` objects. -/
structure DState (V : Type) where
  lists : List (List V)
  alive : Nat → Bool
  vals : List V
  balive : Nat → Bool

def DState.init : DState V := ⟨[], fun _ => true, [], fun _ => true⟩

def DState.read (s : DState V) (b : Nat) : Option V := if s.balive b then s.vals[b]? else none

/-- `[f(x) for x in xs]`; `none` when `f` raises. -/
def mapAll (f : V → Res V E) : List V → Option (List V)
  | [] => some []
  | x :: xs => match f x, mapAll f xs with
    | .val r, some rs => some (r :: rs)
    | _, _ => none

/-- One call on `BackendDummy`, base.py 137-196; `none` when it raises or the program refers to no object. -/
def dummyStep (s : DState V) : Op V E → Option (DState V × Out V E)
  | .parallelize xs => some ({ s with lists := s.lists ++ [xs] }, .unit)
  | .map f src =>
    match s.lists[src]?, s.alive src with
    | some xs, true => match mapAll (f s.read) xs with
      | some ys => some ({ s with lists := s.lists ++ [ys] }, .unit)
      | none => none
    | _, _ => none
  | .collect src =>
    match s.lists[src]?, s.alive src with
    | some xs, true => some (s, .list xs)
    | _, _ => none
  | .broadcast v => some ({ s with vals := s.vals ++ [v] }, .unit)
  | .value b =>
    match s.vals[b]?, s.balive b with
    | some v, true => some (s, .val v)
    | _, _ => none
  | .delPds h => if h < s.lists.length ∧ s.alive h = true then
      some ({ s with alive := Function.update s.alive h false }, .unit) else none
  | .delBds b => if b < s.vals.length ∧ s.balive b = true then
      some ({ s with balive := Function.update s.balive b false }, .unit) else none

/-- A program on `BackendDummy`: what the caller sees if no call raises. -/
def dummyRun : DState V → List (Op V E) → Option (List (Out V E))
  | _, [] => some []
  | s, op :: ops => match dummyStep s op with
    | none => none
    | some (s', o) => match dummyRun s' ops with
      | none => none
      | some os => some (o :: os)

/-- `map` is applied only to results of `parallelize` and `collect` only to results of `map`.
`kinds` tells for the data sets so far whether they come from `parallelize`. -/
def PipelineOnly : List Bool → List (Op V E) → Prop
  | _, [] => True
  | ks, .parallelize _ :: ops => PipelineOnly (ks ++ [true]) ops
  | ks, .map _ src :: ops => ks[src]? = some true ∧ PipelineOnly (ks ++ [false]) ops
  | ks, .collect src :: ops => ks[src]? = some false ∧ PipelineOnly ks ops
  | ks, _ :: ops => PipelineOnly ks ops

end Verif.Mpi
