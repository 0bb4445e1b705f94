import Verif.Schedule.Model
import Verif.Collect
/-
The Spark backend (`abcpy/backends/spark.py` 1-138): a wrapper of `SparkContext.parallelize`, `RDD.map` and `RDD.collect`. A data set is not computed before `collect`; `collect` runs one job with a slice of consecutive
elements for each partition. An attempt at a slice unpickles its own copy of the mapped function, and with it of the sampler, and runs the elements of its slice in order. Attempts may be lost with their
process and repeated, or be run twice; the driver keeps the result of the first attempt that ends. A task that raises ends its attempt; a slice without any result makes `collect` raise.
-/
namespace Verif.Schedule

variable {T S A B : Type}

/-- A parallel data set of `n` elements (`PDSSpark`, spark.py 93-106): how an element is computed on a copy of the sampler. `none` is an exception. -/
structure Pds (S A : Type) where
  n : Nat
  run : Nat → S → S × Option A

/-- `parallelize`, spark.py 24-41. -/
def sparkParallelize (l : List A) : Pds S A := ⟨l.length, fun i s => (s, l[i]?)⟩

/-- `map`, spark.py 61-78: nothing is run. -/
def sparkMap (f : A → S → S × Option B) (p : Pds S A) : Pds S B :=
  ⟨p.n, fun i s => match p.run i s with
    | (s, none) => (s, none)
    | (s, some a) => f a s⟩

/-- An attempt at a slice, on the copy `s`. -/
def attempt (p : Pds S A) : List Nat → S → Option (List A)
  | [], _ => some []
  | i :: l, s => match p.run i s with
    | (_, none) => none
    | (s, some a) => (attempt p l s).map (a :: ·)

/-- An attempt in the history of a job: its slice, and whether its process was lost before it ended. -/
structure Attempt where
  slice : Nat
  lost : Bool

/-- The result of slice `j`: that of the first attempt that ended. -/
def sliceResult (p : Pds S A) (history : List Attempt) (s : S) (j : Nat) (slice : List Nat) : Option (List A) :=
  history.findSome? fun e => if e.slice = j ∧ e.lost = false then attempt p slice s else none

/-- `collect`, spark.py 80-90, with the sampler in state `s` at the time of the call: the results of the slices, one after the other. The sampler of the driver stays as it is. -/
def sparkCollect (p : Pds S A) (slices : List (List Nat)) (history : List Attempt) (s : S) : S × Option (List A) :=
  (s, (collect (slices.zipIdx.map fun e => sliceResult p history s e.2 e.1)).map List.flatten)

end Verif.Schedule
