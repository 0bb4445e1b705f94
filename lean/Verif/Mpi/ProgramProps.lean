import Verif.Mpi.ProgramLemmas
/-
Property theorems C20 and C23 about programs of backend calls.
-/
namespace Verif.Mpi

variable {V E : Type}

/-! ### C20 -/

/-- C20. Run any program of backend calls on the MPI backend, with any schedule of the processes. As long as the backend
has not failed, the identifiers of all data sets ever created are pairwise distinct (also those of broadcast data), and
everything the program has seen agrees with a run of the specification, where a data set keeps the contents of its
creation whatever is called later. Nothing is left on the network between calls. -/
theorem C20_isolation (n : Nat) (hn : 0 < n) (argsort : List Nat → List Nat) (ha : IsArgsort argsort)
    (ops : List (Op V E)) (os : List (Out V E)) (m : MState V E) (hrun : MRun n argsort MState.init ops os m)
    (hok : Out.broken ∉ os) :
    m.objs.Nodup ∧ m.bobjs.Nodup ∧ m.net = [] ∧ ∃ s, SRun SState.init ops os s := by
  obtain ⟨s, h1, h2⟩ := run_rel hn ha (init_rel n) hrun hok
  exact ⟨h2.nodup, h2.bnodup, h2.net, s, h1⟩

/-- Data in the specification is never changed: what a data set holds after a program is what it holds after any
continuation of the program. (Together with `C20_isolation` this is the isolation of data sets.) -/
theorem C20_contents_persist (ops : List (Op V E)) (os : List (Out V E)) (s s' : SState V E) (h : SRun s ops os s') :
    s.data <+: s'.data ∧ s.bdata <+: s'.bdata := by
  induction h with
  | nil => exact ⟨List.prefix_rfl, List.prefix_rfl⟩
  | cons h1 _ ih =>
    have : ∀ {op : Op V E} {s s1 : SState V E} {o}, SStep s op s1 o → s.data <+: s1.data ∧ s.bdata <+: s1.bdata := by
      intro op s s1 o h
      cases h <;> first | exact ⟨List.prefix_rfl, List.prefix_rfl⟩ | exact ⟨List.prefix_append _ _, List.prefix_rfl⟩ |
        exact ⟨List.prefix_rfl, List.prefix_append _ _⟩
    exact ⟨(this h1).1.trans ih.1, (this h1).2.trans ih.2⟩

/-! ### C23 -/

/-- C23, for programs that map only what `parallelize` returned and collect only what `map` returned (this is how the
inference schemes use the backends): if no call of the program raises on the sequential backend, then the program can
be run on the MPI backend with any number of leaders, and every run, whatever the schedule, shows the same results.
Missing: the other programs, where the claim is false. -/
theorem C23_backends_agree_partial (n : Nat) (hn : 0 < n) (argsort : List Nat → List Nat) (ha : IsArgsort argsort)
    (ops : List (Op V E)) (hp : PipelineOnly [] ops) (os : List (Out V E)) (hd : dummyRun DState.init ops = some os) :
    (∃ m, MRun n argsort MState.init ops os m) ∧ ∀ os' m, MRun n argsort MState.init ops os' m → os' = os :=
  dummy_mpi hn ha ops [] DState.init SState.init MState.init os hp hd
    ⟨rfl, rfl, rfl, rfl, rfl, by simp [DState.init]⟩ (init_rel n)

/-- A program with a broadcast read by the mapped function, two maps over one source and a deletion in between. -/
def exProgram : List (Op Nat Unit) :=
  [.parallelize [3, 1, 2], .broadcast 10, .map (fun rd x => .val (x + (rd 0).getD 0)) 0, .collect 1, .delPds 1,
   .map (fun _ x => .val (x * x)) 0, .collect 2, .value 0]

example : PipelineOnly [] exProgram ∧
    dummyRun DState.init exProgram = some [.unit, .unit, .unit, .list [13, 11, 12], .unit, .unit, .list [9, 1, 4], .val 10] := by
  refine ⟨by simp [PipelineOnly, exProgram], rfl⟩

/-- C23 fails: the sequential backend can collect what `parallelize` returned, with MPI every run of this program
breaks the backend. -/
theorem C23_collect_source_violated (n : Nat) (hn : 0 < n) (argsort : List Nat → List Nat) :
    dummyRun DState.init [(.parallelize [1, 2] : Op Nat Unit), .collect 0] = some [.unit, .list [1, 2]] ∧
    ∀ os m, MRun n argsort MState.init [(.parallelize [1, 2] : Op Nat Unit), .collect 0] os m → os = [.unit, .broken] := by
  refine ⟨rfl, ?_⟩
  intro os m hrun
  cases hrun with
  | broken h => cases h
  | cons h1 h2 h3 =>
    cases h1 with
    | parallelize =>
      cases h3 with
      | broken => rfl
      | cons h4 h5 h6 =>
        exfalso
        cases h4 with
        | collectOk _ id acc r hid ha hacc hr =>
          have hid' : (1 : Nat) = id := by simpa [MState.init] using hid
          subst hid'
          have := hacc 0 hn
          simp [MState.init] at this
        | collectRaise _ id acc r hid ha hacc hr =>
          have hid' : (1 : Nat) = id := by simpa [MState.init] using hid
          subst hid'
          have := hacc 0 hn
          simp [MState.init] at this
        | collectBroken => exact h5 rfl

/-- C23 fails: the sequential backend can map the result of a map, with MPI every run of this program breaks. -/
theorem C23_map_of_map_violated (n : Nat) (argsort : List Nat → List Nat) (f g : Nat → Nat) :
    let p : List (Op Nat Unit) := [.parallelize [1, 2], .map (fun _ x => .val (f x)) 0, .map (fun _ x => .val (g x)) 1, .collect 2]
    dummyRun DState.init p = some [.unit, .unit, .unit, .list [g (f 1), g (f 2)]] ∧
    ∀ os m, MRun n argsort MState.init p os m → Out.broken ∈ os := by
  refine ⟨rfl, ?_⟩
  intro os m hrun
  cases hrun with
  | broken h => cases h
  | cons h1 h2 h3 =>
    cases h1 with
    | parallelize =>
      cases h3 with
      | broken => simp
      | cons h4 h5 h6 =>
        cases h4 with
        | mapBroken => exact absurd rfl h5
        | map _ _ id xs k w hid ha hxs hr hs =>
          cases h6 with
          | broken => simp
          | cons h7 h8 h9 =>
            cases h7 with
            | mapBroken => exact absurd rfl h8
            | map _ _ id' xs' k' w' hid' ha' hxs' hr' hs' =>
              have hid'' : (2 : Nat) = id' := by simpa [MState.init] using hid'
              subst hid''
              simp [MState.init] at hxs'

end Verif.Mpi
