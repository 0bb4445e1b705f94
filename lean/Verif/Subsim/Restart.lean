import Verif.Subsim.Run
import Verif.Subsim.Props
/-
C119 for `ABCsubsim`: restarts from a journal.
-/
namespace Verif.Subsim

variable {W Θ Y M : Type} (env : Env W Θ Y M) (c : Config)

/-- `perturb` before the kernels have got their values: `kernel_parameters_bds` is `None`, and its `value()` raises `AttributeError` (perturbationkernel.py 302, 432, 563). -/
def perturbUnset (_ : W) : Option (W × Θ) := none

/-- `_accept_parameter` (2344-2381) in the first step of a restart on a new sampler: the particle gets a new data set; the chain, if its length is more than one, needs a proposal. -/
noncomputable def acceptFrom (pop : List Θ) (i : Nat) (w : W) : Option (List Θ × List ℝ) :=
  (pop[i]?).bind fun θ =>
    let b := env.sim θ w
    if c.length ≤ 1 then some ([θ], [env.dist b.2]) else (perturbUnset (Θ := Θ) b.1).map fun _ => ([θ], [env.dist b.2])

/-- The first step of `ABCsubsim.sample` with a journal file whose last population is `pop`, on a new sampler, lines 2164-2218: the annealing parameter, or `none` for an exception. One worker for every particle, since
`temp_chain_length` is one (2160). -/
noncomputable def restartAnneal (start : List W) (pop : List Θ) : Option ℝ :=
  if start.length ≠ c.n ∨ start = [] ∨ c.length = 0 then none
  else match collect (start.zipIdx.map fun (e : W × Nat) => acceptFrom env c pop e.2 e.1) with
    | none => none
    | some out =>
      let distances := (sorted (out.map Prod.fst) (out.map Prod.snd).flatten).map Prod.fst
      (distances[c.n / c.length]?).bind fun a => (distances[c.n / c.length + 1]?).map fun b => (1 / 2) * (a + b)

/-- **C119 fails for `ABCsubsim`.** The first step of a restart on a new sampler raises, whatever the journal: longer chains need proposals, which cannot be made; with chains of length one there is no annealing parameter. -/
theorem C119_subsim_violated (start : List W) (pop : List Θ) : restartAnneal env c start pop = none := by
  unfold restartAnneal
  split
  · rfl
  · rename_i hn
    push Not at hn
    obtain ⟨hlen, hne, h0⟩ := hn
    split
    · rfl
    · rename_i out hout
      rw [collect_eq_some] at hout
      by_cases h1 : c.length ≤ 1
      · have hc : c.length = 1 := by omega
        have hl : out.length = c.n := by
          have := congrArg List.length hout
          simp only [List.length_map, List.length_zipIdx] at this
          omega
        have : (sorted (out.map Prod.fst) (out.map Prod.snd).flatten).length ≤ c.n := by
          unfold sorted
          rw [List.length_insertionSort, List.length_zip, List.length_map, hl]
          exact min_le_right _ _
        simp only [hc, Nat.div_one]
        rw [List.getElem?_eq_none (by simpa using this)]
        rfl
      · exfalso
        obtain ⟨w, l, hl⟩ := List.exists_cons_of_ne_nil hne
        rw [hl] at hout
        have hw : acceptFrom env c pop 0 w = none := by
          unfold acceptFrom perturbUnset
          cases pop[0]? with
          | none => rfl
          | some θ => simp [h1]
        cases out with
        | nil => simp at hout
        | cons o out =>
          simp only [List.zipIdx_cons, List.map_cons, hw, List.cons.injEq] at hout
          cases hout.1

/-- A call does leave a journal to restart from. -/
example : ∃ s, run exEnv ⟨5, 2, 2, 0, true⟩ 1 exStart exTune = some s := by
  obtain ⟨s, h, -⟩ := exRun
  exact ⟨s, h⟩

end Verif.Subsim
