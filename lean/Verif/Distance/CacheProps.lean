import Verif.Distance.CacheLemmas
import Mathlib.Tactic.NormNum

/-!
# C57: caching the observed statistics never changes a distance

A history is a list of calls of one object; each call comes with the state of the caller's list
objects and arrays at that moment, so the history also says what the caller changed in between.
-/

namespace Verif.Distance

open Classical

/-! ## Specification -/

/-- What a call should return: computed from the values of the two data sets at the time of the
call, without looking at earlier calls. -/
noncomputable def fresh {β : Type} (stats : List (List ℝ) → Option Stats) (f : Stats → Stats → Option β)
    (k : Call) : Option β :=
  (stats (k.heap.values k.obs)).bind fun s1 => (stats (k.heap.values k.sim)).bind fun s2 =>
    if s1.width = s2.width then f s1 s2 else none

/-- No data set passed as the observations is changed in place by the caller afterwards. -/
def Unchanged (hist : List Call) : Prop :=
  hist.Pairwise fun a b => b.heap.values a.obs = a.heap.values a.obs

/-- Any two observed data sets are the same list object, or consist of observations of one size. -/
def Comparable (hist : List Call) : Prop :=
  hist.Pairwise fun a b => a.obs = b.obs ∨ ∃ size, (∀ v ∈ a.heap.values a.obs, v.length = size) ∧
    ∀ v ∈ b.heap.values b.obs, v.length = size

/-! ## Theorems -/

/-- A new object returns the value computed from the data (or raises, when a statistic raises, the
widths differ, or the formula has no value). -/
theorem C57_new {β : Type} (stats : List (List ℝ) → Option Stats) (f : Stats → Stats → Option β) (k : Call) :
    (call stats f Cache.new k.heap k.obs k.sim).2 = fresh stats f k := by
  simp only [call, summaries, Cache.check, Cache.new, Cache.refresh, fresh]
  cases stats (k.heap.values k.obs) with
  | none => rfl
  | some s1 =>
    cases stats (k.heap.values k.sim) with
    | none => rfl
    | some s2 =>
      by_cases h : s1.width = s2.width
      · simp [h]
      · simp [h]

theorem calls_good {β : Type} (stats : List (List ℝ) → Option Stats) (f : Stats → Stats → Option β)
    (past hist : List Call) (c : Cache) (hg : Good stats past c)
    (hu : Unchanged (past ++ hist)) (hc : Comparable (past ++ hist))
    (hne : ∀ k ∈ hist, k.heap.values k.obs ≠ []) :
    calls stats f c hist = hist.map (fresh stats f) := by
  induction hist generalizing past c with
  | nil => rfl
  | cons k rest ih =>
    rw [calls]
    have hu' := List.pairwise_append.1 hu
    have hc' := List.pairwise_append.1 hc
    obtain ⟨h1, h2⟩ := summaries_good stats past c k hg
      (fun p hp => ⟨hc'.2.2 p hp k (by simp), hu'.2.2 p hp k (by simp)⟩) (hne k (by simp))
    have e : past ++ k :: rest = past ++ [k] ++ rest := by simp
    simp only [List.map_cons, List.cons.injEq]
    constructor
    · rw [← C57_new stats f k]
      simp only [call, h1]
    · exact ih (past ++ [k]) _ h2 (e ▸ hu) (e ▸ hc) (fun x hx => hne x (by simp [hx]))

/-- C57 for histories in which the caller does not change an observed data set in place after
passing it, and any two observed data sets are the same object or have observations of one size:
every call of one object returns exactly what the data say, whatever was computed before - also
after calls that raised an exception. Missing from C57: changes in place and observations of
different sizes, where it is false (see the `_violated` theorems), and empty data sets. -/
theorem C57_partial {β : Type} (stats : List (List ℝ) → Option Stats) (f : Stats → Stats → Option β)
    (hist : List Call) (hu : Unchanged hist) (hc : Comparable hist)
    (hne : ∀ k ∈ hist, k.heap.values k.obs ≠ []) :
    calls stats f Cache.new hist = hist.map (fresh stats f) :=
  calls_good stats f [] hist Cache.new (.inl ⟨rfl, rfl⟩) hu hc hne

/-! ## Concrete histories -/

/-- A statistic: the sum of each observation. -/
noncomputable def sums (d : List (List ℝ)) : Option Stats := some ⟨1, d.map fun v => [v.sum]⟩

/-- A formula: difference of the sums of the first columns. -/
noncomputable def difference (s1 s2 : Stats) : Option ℝ := some (s1.rows.flatten.sum - s2.rows.flatten.sum)

/-- Lists 0, 1 and 2 hold one array each, with the given contents. -/
def heapOf (a b c : List ℝ) : Heap :=
  ⟨fun r => [r], fun r => if r = 0 then a else if r = 1 then b else c⟩

/-- The hypotheses of `C57_partial` hold for a history with two different observed data sets, the
second of them used twice. -/
example : ∃ hist : List Call, hist.length = 3 ∧ Unchanged hist ∧ Comparable hist ∧
    (∀ k ∈ hist, k.heap.values k.obs ≠ []) ∧
    hist.map (fresh sums difference) = [some (-3), some 2, some 2] := by
  refine ⟨[⟨heapOf [1, 1] [2, 5] [3, 2], 0, 2⟩, ⟨heapOf [1, 1] [2, 5] [3, 2], 1, 2⟩,
    ⟨heapOf [1, 1] [2, 5] [3, 2], 1, 2⟩], rfl, ?_, ?_, ?_, ?_⟩
  · simp [Unchanged, Heap.values, heapOf]
  · simp only [Comparable]
    simp [Heap.values, heapOf]
  · simp [Heap.values, heapOf]
  · simp only [List.map, fresh, sums, difference, Heap.values, heapOf, Option.bind_some]
    norm_num

/-- C57 fails when the caller changes the observed data in place: the object holds a reference to
the caller's list, so the comparison finds no change and the old statistics are used. -/
theorem C57_inplace_violated : ∃ hist : List Call, Comparable hist ∧
    (∀ k ∈ hist, k.heap.values k.obs ≠ []) ∧
    hist.map (fresh sums difference) = [some 1, some 6] ∧
    calls sums difference Cache.new hist = [some 1, some 1] := by
  refine ⟨[⟨heapOf [1, 1] [1, 0] [], 0, 1⟩, ⟨heapOf [5, 2] [1, 0] [], 0, 1⟩], ?_, ?_, ?_, ?_⟩
  · simp only [Comparable]
    simp
  · simp [Heap.values, heapOf]
  · simp only [List.map, fresh, sums, difference, Heap.values, heapOf, Option.bind_some]
    norm_num
  · have h : sameData (heapOf [5, 2] [1, 0] []) 0 0 = some true := sameData_self _ _ (by simp [Heap.values, heapOf])
    simp only [calls, call, summaries, Cache.check, Cache.new, Cache.refresh, h, sums, Option.map_some, difference]
    norm_num [Heap.values, heapOf]

/-- C57 fails for a data set whose observations are longer than the stored ones: the comparison
broadcasts, so `[1]` and `[1, 1]` count as the same and the statistics of the former are used for
the latter. Nothing is changed in place here. -/
theorem C57_broadcast_violated : ∃ hist : List Call, Unchanged hist ∧
    (∀ k ∈ hist, k.heap.values k.obs ≠ []) ∧
    hist.map (fresh sums difference) = [some 1, some 2] ∧
    calls sums difference Cache.new hist = [some 1, some 1] := by
  refine ⟨[⟨heapOf [1] [1, 1] [0], 0, 2⟩, ⟨heapOf [1] [1, 1] [0], 1, 2⟩], ?_, ?_, ?_, ?_⟩
  · simp [Unchanged]
  · simp [Heap.values, heapOf]
  · simp only [List.map, fresh, sums, difference, Heap.values, heapOf, Option.bind_some]
    norm_num
  · have h : sameData (heapOf [1] [1, 1] [0]) 0 1 = some true := by
      simp [sameData, heapOf, broadcastEq, collect]
    simp only [calls, call, summaries, Cache.check, Cache.new, Cache.refresh, h, sums, Option.map_some, difference]
    norm_num [Heap.values, heapOf]

/-- C57 fails for observations of sizes two and three: the comparison raises an exception, where a
new object returns a value. -/
theorem C57_sizes_violated : ∃ hist : List Call, Unchanged hist ∧
    (∀ k ∈ hist, k.heap.values k.obs ≠ []) ∧
    hist.map (fresh sums difference) = [some 2, some 3] ∧
    calls sums difference Cache.new hist = [some 2, none] := by
  refine ⟨[⟨heapOf [1, 1] [1, 1, 1] [0], 0, 2⟩, ⟨heapOf [1, 1] [1, 1, 1] [0], 1, 2⟩], ?_, ?_, ?_, ?_⟩
  · simp [Unchanged]
  · simp [Heap.values, heapOf]
  · simp only [List.map, fresh, sums, difference, Heap.values, heapOf, Option.bind_some]
    norm_num
  · have h : sameData (heapOf [1, 1] [1, 1, 1] [0]) 0 1 = none := by
      simp [sameData, heapOf, broadcastEq, collect]
    simp only [calls, call, summaries, Cache.check, Cache.new, Cache.refresh, h, sums, Option.map_some, difference]
    norm_num [Heap.values, heapOf]

end Verif.Distance
