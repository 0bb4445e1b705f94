import Verif.Kernel.Model
import Verif.Pmc.Model
/-
The tasks of the samplers on the graph of models: the samplers are modelled in `Verif.Pmc` and other directories over an abstract graph; here they store values in the nodes (`Verif.Graph`), perturb with the
loop of 100 attempts (`Verif.Kernel`), and the simulator reads the stored values.
-/
namespace Verif.Site

open Graph

/-- What a task works with. `prior k` is the stream of random numbers with seed `k`, as used by `sample_from_prior`, and `tries` bounds the attempts of its loop. `simulate k vals c` runs all simulators at the
stored values `vals`, with the stream from position `c`, and returns the new position and the data. `update request k c` is `kernel.update`, for a request of the sampler (population and index): new position and
list of models with new values, `none` if it raises. `choice k weights c` is `rng.choice`. `dist` is the distance to the observations, `distMax` its maximum, `none` if infinite. -/
structure Site (α Y K : Type) where
  g : G
  roots : List Nat
  chk : (Nat → Option α) → Nat → α → Verdict
  dens : (Nat → Option α) → Nat → Option α → ℝ
  prior : Nat → Sim α
  tries : Nat
  simulate : Nat → (Nat → Option α) → Nat → Nat × Y
  update : K → Nat → Nat → Nat × Option (List (Nat × List α))
  choice : Nat → List ℝ → Nat → Nat × Nat
  dist : Y → ℝ
  distMax : Option ℝ

/-- A process during a task: the seed of the task, the nodes, the position in the stream. -/
structure Worker (α : Type) where
  seed : Nat
  st : St α
  clock : Nat

variable {α Y K : Type}

/-- `sample_from_prior(rng)` and `get_parameters()` (inferences.py 1001-1002 and others). -/
def priorDraw (S : Site α Y K) (w : Worker α) : Option (Worker α × List (Option α)) :=
  match sampleFromPrior S.g (S.prior w.seed) S.roots S.tries ⟨w.st, w.clock, []⟩ with
  | none => none
  | some s =>
    let r := getParameters S.g S.roots s.st
    some (⟨w.seed, r.1, s.clock⟩, r.2)

/-- The position after `e` updates. -/
def after (S : Site α Y K) (k : K) (seed c : Nat) : Nat → Nat
  | 0 => c
  | e + 1 => (S.update k seed (after S k seed c e)).1

/-- What the kernel returns at epoch `e` of the loop of `perturb`. -/
def proposals (S : Site α Y K) (k : K) (seed c e : Nat) : Option (List (Nat × List α)) := (S.update k seed (after S k seed c e)).2

/-- `perturb` with its 100 epochs, inferences.py 85-129; the number of updates is one more than the final epoch if the last update was accepted, and 100 otherwise. `none` is an exception. -/
def perturb (S : Site α Y K) (k : K) (w : Worker α) : Option (Worker α × Option (List α)) :=
  let clock := match (Kernel.perturbLoop S.g S.chk S.roots (proposals S k w.seed w.clock) 100 0 none w.st).2 with
    | none => w.clock
    | some (epoch, _) => after S k w.seed w.clock (min (epoch + 1) 100)
  match Kernel.perturb S.g S.chk S.roots (proposals S k w.seed w.clock) 100 w.st with
  | (_, .raised) => none
  | (s, .no) => some (⟨w.seed, s, clock⟩, none)
  | (s, .yes ps) => some (⟨w.seed, s, clock⟩, some ps)

open Classical in
/-- Lines 1010-1014 and the same loop in the other samplers: `pdf_of_prior` stores the values again. `none`: an exception, or the loop does not end with this fuel. -/
noncomputable def propose (S : Site α Y K) (k : K) : Nat → Worker α → Option (Worker α × List α)
  | 0, _ => none
  | fuel + 1, w => match perturb S k w with
    | none => none
    | some (w, none) => propose S k fuel w
    | some (w, some ps) => match pdfOfPrior S.g S.chk S.dens S.roots ps w.st with
      | (_, none) => none
      | (s, some d) => if d ≠ 0 then some (⟨w.seed, s, w.clock⟩, ps) else propose S k fuel ⟨w.seed, s, w.clock⟩

/-- `simulate`: the simulators read the stored values. -/
def simulate (S : Site α Y K) (w : Worker α) : Worker α × Y :=
  (⟨w.seed, w.st, (S.simulate w.seed w.st.value w.clock).1⟩, (S.simulate w.seed w.st.value w.clock).2)

/-! ### PMCABC -/

/-- Lines 998-1020 on the graph. The kernel is asked with population and index. -/
noncomputable def resampleLoop (S : Site α Y (Pmc.Pop (List (Option α)) × Nat)) (eps : ℝ) (pop : Option (Pmc.Pop (List (Option α)))) :
    Nat → Worker α → List (Option α) → Option ℝ → Nat → Option (Worker α × List (Option α) × Option ℝ × Nat)
  | 0, _, _, _, _ => none
  | fuel + 1, w, θ, d, c =>
    if Pmc.above d eps then
      match pop with
      | none => match priorDraw S w with
        | none => none
        | some (w, θ) =>
          let r := simulate S w
          resampleLoop S eps pop fuel r.1 θ (some (S.dist r.2)) (c + 1)
      | some p =>
        let i := S.choice w.seed p.weights w.clock
        match propose S (p, i.2) fuel ⟨w.seed, w.st, i.1⟩ with
        | none => none
        | some (w, ps) =>
          let r := simulate S w
          resampleLoop S eps pop fuel r.1 (ps.map some) (some (S.dist r.2)) (c + 1)
    else some (w, θ, d, c)

/-- `_resample_parameter`, lines 967-1026, with a fresh generator for the seed. `none`: an exception, or it does not end with this fuel. -/
noncomputable def resampleTask (S : Site α Y (Pmc.Pop (List (Option α)) × Nat)) (eps : ℝ) (pop : Option (Pmc.Pop (List (Option α)))) (fuel seed : Nat) (st : St α) :
    St α × Option (List (Option α) × ℝ × Nat) :=
  let r := getParameters S.g S.roots st
  match resampleLoop S eps pop fuel ⟨seed, r.1, 0⟩ r.2 S.distMax 0 with
  | some (w, θ, some d, c) => (w.st, some (θ, d, c))
  | _ => (st, none)

end Verif.Site
