import Verif.Pmc.Model
/-
Calls of `PMCABC.sample` with their journals (`abcpy/inferences.py` 810-965): what is stored in which step, restarts from a journal file, and what is in the file at
`path_to_save_journal` at any time.
-/
namespace Verif.Pmc

variable {W Θ Y : Type}

/-- The journal: populations with their thresholds, the numbers of simulations and `configuration["epsilon_arr"]`. `full` is the type of the journal (output.py 57-60). The threshold of a
population is kept here for reference; the journal has it only in `epsilon_arr`. -/
structure Journal (Θ : Type) where
  full : Bool
  pops : List (Rec Θ)
  sims : List Nat
  epsArr : Option (List (Option ℝ))

/-- Lines 945-954 with `add_*` of the journal (output.py 95-215): a journal of type 0 keeps the last population only, but the number of simulations is appended in any case. -/
def Journal.add (j : Journal Θ) (r : Rec Θ) (counter : Nat) : Journal Θ :=
  { j with pops := if j.full then j.pops ++ [r] else [r], sims := j.sims ++ [counter] }

/-- Lines 957-960. -/
def Journal.addEps (restarted : Bool) (arr : List (Option ℝ)) (j : Journal Θ) : Journal Θ :=
  match restarted, j.epsArr with
  | true, some l => { j with epsArr := some (l ++ arr) }
  | _, _ => { j with epsArr := some arr }

/-- Lines 943-960: what iteration `t`, which has led to the state `s`, adds to the journal. -/
def write (full restarted : Bool) (steps t : Nat) (s : State Θ) (j : Journal Θ) : Journal Θ :=
  let j := if full ∨ t + 1 = steps then (match s.hist.getLast? with | some r => j.add r s.counter | none => j) else j
  j.addEps restarted s.epsArr

/-- The loop of lines 847-963, iterations `t` to `t + k - 1`, with the journal. -/
noncomputable def sessionLoop (env : Env W Θ Y) (steps : Nat) (pct : ℝ) (fuel : Nat) (full restarted : Bool) (start : Nat → List W) :
    Nat → Nat → State Θ → Journal Θ → Option (State Θ × Journal Θ)
  | 0, _, s, j => some (s, j)
  | k + 1, t, s, j => match pmcStep env steps pct fuel t (start t) s with
    | none => none
    | some s => sessionLoop env steps pct fuel full restarted start k (t + 1) s (write full restarted steps t s j)

/-- The contents of the file at `path_to_save_journal` from iteration `t` on, in order: `save` (962-963; output.py 217-228) empties the file and then writes the journal; in between it cannot be read
(`none`). If an iteration fails the file is not touched any more. -/
noncomputable def files (env : Env W Θ Y) (steps : Nat) (pct : ℝ) (fuel : Nat) (full restarted : Bool) (start : Nat → List W) :
    Nat → Nat → State Θ → Journal Θ → List (Option (Journal Θ))
  | 0, _, _, _ => []
  | k + 1, t, s, j => match pmcStep env steps pct fuel t (start t) s with
    | none => []
    | some s =>
      none :: some (write full restarted steps t s j) :: files env steps pct fuel full restarted start k (t + 1) s (write full restarted steps t s j)

/-- What the first iteration does if there is a journal file (849-873): the last population of the journal becomes the current one, and the first threshold is at least the percentile of its distances.
`none`: an exception (no population in the journal). -/
noncomputable def resume (pct : ℝ) (j : Journal Θ) (s : State Θ) : Option (State Θ) :=
  match j.pops.getLast?, s.epsArr[0]? with
  | some r, some (some e) => (percentile r.distances pct).map fun q =>
    { s with epsArr := s.epsArr.set 0 (some (max q e)), pop := some ⟨r.params, r.weights⟩ }
  | _, _ => none

/-- The state and the journal with which a call starts its loop. `file` is the journal read from `journal_file`, if given (818-843). -/
noncomputable def opening (steps : Nat) (epsInit : List ℝ) (pct : ℝ) (full : Bool) (before : Option (Pop Θ)) (counter : Nat) (file : Option (Journal Θ)) :
    Option (State Θ × Journal Θ) :=
  match initEps epsInit steps, file with
  | none, _ => none
  | some arr, none => some (⟨arr, before, counter, []⟩, ⟨full, [], [], none⟩)
  | some arr, some j => if steps = 0 then some (⟨arr, before, counter, []⟩, j) else (resume pct j ⟨arr, before, counter, []⟩).map fun s => (s, j)

/-- `PMCABC.sample`, lines 810-965. `before` and `counter`: what the sampler still holds from earlier calls. -/
noncomputable def session (env : Env W Θ Y) (steps : Nat) (epsInit : List ℝ) (pct : ℝ) (fuel : Nat) (full : Bool) (start : Nat → List W) (before : Option (Pop Θ))
    (counter : Nat) (file : Option (Journal Θ)) : Option (State Θ × Journal Θ) :=
  match opening steps epsInit pct full before counter file with
  | none => none
  | some (s, j) => sessionLoop env steps pct fuel full file.isSome start steps 0 s j

/-- The contents of the file at `path_to_save_journal` in the course of a call, in order; `found` is what is there before. If the process dies, one of these is left. -/
noncomputable def sessionFiles (env : Env W Θ Y) (steps : Nat) (epsInit : List ℝ) (pct : ℝ) (fuel : Nat) (full : Bool) (start : Nat → List W) (before : Option (Pop Θ))
    (counter : Nat) (file found : Option (Journal Θ)) : List (Option (Journal Θ)) :=
  match opening steps epsInit pct full before counter file with
  | none => [found]
  | some (s, j) => found :: files env steps pct fuel full file.isSome start steps 0 s j

end Verif.Pmc
