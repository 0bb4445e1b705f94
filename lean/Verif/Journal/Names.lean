import Verif.Journal.Props
import Mathlib.Data.List.Dedup
/-
C222: looking up parameters by name. Names are optional and default to the name of the distribution (continuousmodels.py 9, 123, ..., discretemodels.py 9, 99, ...); `add_user_parameters` makes a dictionary of
the named columns (output.py 108-111).
-/
namespace Verif.Journal

/-! ### Specification -/

/-- `journal.get_parameters()[name]`; `none` is the `KeyError`. -/
def lookup {β : Type} (d : List (String × β)) (name : String) : Option β := (d.find? fun e => e.1 = name).map Prod.snd

/-- The values of parameter `i` in all particles, each in a list of its own (an empty one if the particle is too short). -/
def column {α : Type} (particles : List (List α)) (i : Nat) : List (List α) := particles.map fun p => p[i]?.toList

/-- Parameter `i` is the last one of its name. -/
def LastOf (names : List String) (name : String) (i : Nat) : Prop := names[i]? = some name ∧ ∀ j, i < j → names[j]? ≠ some name

/-! ### Dictionaries -/

theorem dict_append {β : Type} (l : List (String × β)) (e : String × β) : pyDict (l ++ [e]) =
    if (pyDict l).any (fun x => x.1 = e.1) then (pyDict l).map (fun x => if x.1 = e.1 then e else x) else pyDict l ++ [e] := by
  unfold pyDict
  rw [List.foldl_append]
  rfl

theorem lookup_append {β : Type} (l : List (String × β)) (e : String × β) (name : String) :
    lookup (pyDict (l ++ [e])) name = if e.1 = name then some e.2 else lookup (pyDict l) name := by
  rw [dict_append]
  generalize pyDict l = d
  unfold lookup
  by_cases h : (d.any fun x => x.1 = e.1) = true
  · rw [if_pos h]
    by_cases hn : e.1 = name
    · rw [if_pos hn]
      subst hn
      induction d with
      | nil => simp at h
      | cons x d ih =>
        by_cases hx : x.1 = e.1
        · simp [hx]
        · simp only [List.any_cons, Bool.or_eq_true, decide_eq_true_eq, hx, false_or] at h
          rw [List.map_cons, if_neg hx, List.find?_cons_of_neg (by simpa using hx)]
          exact ih (by simpa using h)
    · rw [if_neg hn]
      clear h
      induction d with
      | nil => rfl
      | cons x d ih =>
        by_cases hx : x.1 = e.1
        · have : x.1 ≠ name := by rw [hx]; exact hn
          simp only [List.map_cons, if_pos hx, List.find?_cons, hn, this, decide_false]
          exact ih
        · by_cases hxn : x.1 = name
          · rw [List.map_cons, if_neg hx, List.find?_cons_of_pos (by simpa using hxn), List.find?_cons_of_pos (by simpa using hxn)]
          · simp only [List.map_cons, if_neg hx, List.find?_cons, hxn, decide_false]
            exact ih
  · rw [if_neg h]
    by_cases hn : e.1 = name
    · rw [if_pos hn, List.find?_append]
      have : d.find? (fun x => x.1 = name) = none := by
        rw [List.find?_eq_none]
        intro x hx hxn
        exact h (List.any_eq_true.2 ⟨x, hx, by simpa [hn] using hxn⟩)
      rw [this]
      simp [hn]
    · rw [if_neg hn, List.find?_append]
      simp [hn]

theorem keys_append {β : Type} (l : List (String × β)) (e : String × β) :
    (pyDict (l ++ [e])).map Prod.fst = if e.1 ∈ (pyDict l).map Prod.fst then (pyDict l).map Prod.fst else (pyDict l).map Prod.fst ++ [e.1] := by
  rw [dict_append]
  have hm : ((pyDict l).any fun x => x.1 = e.1) = true ↔ e.1 ∈ (pyDict l).map Prod.fst := by
    rw [List.any_eq_true, List.mem_map]
    simp
  by_cases h : ((pyDict l).any fun x => x.1 = e.1) = true
  · rw [if_pos h, if_pos (hm.1 h), List.map_map]
    apply List.map_congr_left
    intro x _
    simp only [Function.comp]
    split
    · rename_i hx; exact hx.symm
    · rfl
  · rw [if_neg h, if_neg (fun h' => h (hm.2 h')), List.map_append]; rfl

theorem keys {β : Type} (l : List (String × β)) : ((pyDict l).map Prod.fst).Nodup ∧ ∀ n, n ∈ (pyDict l).map Prod.fst ↔ n ∈ l.map Prod.fst := by
  induction l using List.reverseRecOn with
  | nil => simp [pyDict]
  | append_singleton l e ih =>
    rw [keys_append]
    split
    · rename_i h
      refine ⟨ih.1, fun n => ?_⟩
      rw [ih.2, List.map_append, List.mem_append]
      constructor
      · exact .inl
      · rintro (h' | h')
        · exact h'
        · simp only [List.map_cons, List.map_nil, List.mem_singleton] at h'
          rw [h']; exact (ih.2 _).1 h
    · rename_i h
      refine ⟨?_, fun n => ?_⟩
      · rw [List.nodup_append]
        exact ⟨ih.1, by simp, by intro a ha b hb hab; simp at hb; subst hab; subst hb; exact h ha⟩
      · rw [List.mem_append, ih.2, List.map_append, List.mem_append]; rfl

theorem lookup_last {β : Type} (l : List (String × β)) (i : Nat) (e : String × β) (he : l[i]? = some e) (hlast : ∀ j, i < j → ∀ e', l[j]? = some e' → e'.1 ≠ e.1) :
    lookup (pyDict l) e.1 = some e.2 := by
  induction l using List.reverseRecOn with
  | nil => simp at he
  | append_singleton l a ih =>
    rw [lookup_append]
    by_cases hi : i = l.length
    · subst hi
      simp only [List.getElem?_concat_length, Option.some.injEq] at he
      rw [if_pos (by rw [he]), he]
    · have hil : i < l.length := by
        have := (List.getElem?_eq_some_iff.1 he).1
        simp at this; omega
      rw [if_neg (hlast l.length hil a (by simp))]
      refine ih (by rwa [List.getElem?_append_left hil] at he) fun j hj e' he' => ?_
      have hjl := (List.getElem?_eq_some_iff.1 he').1
      exact hlast j hj e' (by rw [List.getElem?_append_left hjl]; exact he')

/-! ### Properties -/

theorem namedColumns_get {α : Type} (names : List String) (particles : List (List α)) (i : Nat) : (namedColumns names particles)[i]? = names[i]?.map fun n => (n, column particles i) := by
  unfold namedColumns column
  have h : ∀ (p : List α) (i : Nat), (p.drop i).take 1 = p[i]?.toList := by
    intro p
    induction p with
    | nil => simp
    | cons a p ih => intro i; cases i <;> simp [ih]
  rw [List.getElem?_map, List.getElem?_zipIdx]
  cases names[i]? <;> simp [h]

/-- C222, what a journal lists: every name that some parameter has, once, with the values of the last parameter of that name. -/
theorem C222_lookup {α : Type} (names : List String) (particles : List (List α)) (name : String) (i : Nat) (h : LastOf names name i) :
    lookup (pyDict (namedColumns names particles)) name = some (column particles i) ∧ (pyDict (namedColumns names particles)).length = names.dedup.length := by
  constructor
  · have := lookup_last (namedColumns names particles) i (name, column particles i) (by rw [namedColumns_get, h.1]; rfl) fun j hj e' he' => ?_
    · exact this
    · rw [namedColumns_get] at he'
      obtain ⟨n, hn, rfl⟩ := Option.map_eq_some_iff.1 he'
      intro heq
      exact h.2 j hj (by rw [hn]; exact congrArg some heq)
  · have hk := keys (namedColumns names particles)
    have hn : (namedColumns names particles).map Prod.fst = names := by
      unfold namedColumns
      rw [List.map_map]
      exact List.zipIdx_map_fst 0 names
    rw [hn] at hk
    rw [← List.length_map Prod.fst]
    refine List.Perm.length_eq ((List.perm_ext_iff_of_nodup hk.1 (List.nodup_dedup names)).2 fun n => ?_)
    rw [hk.2, List.mem_dedup]

/-- C222 for parameters with different names: every parameter is listed under its name with its own values, and there are as many entries as parameters. -/
theorem C222_names_partial {α : Type} (names : List String) (hn : names.Nodup) (particles : List (List α)) (i : Nat) (hi : i < names.length) :
    lookup (pyDict (namedColumns names particles)) names[i] = some (column particles i) ∧ (pyDict (namedColumns names particles)).length = names.length := by
  have := C222_lookup names particles names[i] i ⟨by simp, fun j hj he => ?_⟩
  · rwa [List.dedup_eq_self.2 hn] at this
  · obtain ⟨hjl, he⟩ := List.getElem?_eq_some_iff.1 he
    exact absurd ((List.Nodup.getElem_inj_iff hn).1 he) (by omega)

/-- C222 fails for every model in which two parameters have the same name: the journal lists fewer entries than there are parameters, and under the name of the first of the two it lists the
values of another one. -/
theorem C222_names_violated {α : Type} (names : List String) (particles : List (List α)) (i j : Nat) (hij : i < j) (name : String) (hi : names[i]? = some name) (hj : names[j]? = some name) :
    (pyDict (namedColumns names particles)).length < names.length ∧
    ∃ k, i < k ∧ names[k]? = some name ∧ lookup (pyDict (namedColumns names particles)) name = some (column particles k) := by
  obtain ⟨k, hk, hmax⟩ : ∃ k, names[k]? = some name ∧ ∀ m, k < m → names[m]? ≠ some name := by
    have hfin : ∃ N, ∀ m, N < m → names[m]? ≠ some name := ⟨names.length, fun m hm h => by
      have := (List.getElem?_eq_some_iff.1 h).1; omega⟩
    obtain ⟨N, hN⟩ := hfin
    induction N with
    | zero =>
      refine absurd hj (hN j (by omega))
    | succ N ih =>
      by_cases h : names[N + 1]? = some name
      · exact ⟨N + 1, h, hN⟩
      · refine ih fun m hm => ?_
        rcases (by omega : m = N + 1 ∨ N + 1 < m) with rfl | hm
        · exact h
        · exact hN m hm
  have hkj : j ≤ k := by
    by_contra hlt
    exact hmax j (by omega) hj
  have h := C222_lookup names particles name k ⟨hk, hmax⟩
  refine ⟨?_, k, by omega, hk, h.1⟩
  rw [h.2]
  refine lt_of_le_of_ne (List.Sublist.length_le (List.dedup_sublist names)) fun he => ?_
  have hnd : names.Nodup := by
    rw [← List.dedup_eq_self]
    exact (List.dedup_sublist names).eq_of_length he
  obtain ⟨hil, hi⟩ := List.getElem?_eq_some_iff.1 hi
  obtain ⟨hjl, hj⟩ := List.getElem?_eq_some_iff.1 hj
  have := (List.Nodup.getElem_inj_iff hnd).1 (hi.trans hj.symm)
  omega

/-- C222 fails with default names: two uniform priors without names, two particles. `posterior_mean` has one entry, the mean of the second parameter. -/
theorem C222_default_violated :
    posteriorMean [pyDict (namedColumns ["Uniform", "Uniform"] [[0, 10], [2, 20]])] [[1, 1]] none = some [("Uniform", [15])] := by
  have h : pyDict (namedColumns ["Uniform", "Uniform"] [[(0 : ℝ), 10], [2, 20]]) = [("Uniform", [[10], [20]])] := rfl
  rw [h]
  norm_num [posteriorMean, Models.pyIndex, squeeze, averageRows, npAverage, collect]

/-- Three parameters with different names. -/
example : lookup (pyDict (namedColumns ["mu", "sigma", "p"] [[1, 2, 3], [4, 5, 6]])) "sigma" = some [[2], [5]] :=
  (C222_names_partial ["mu", "sigma", "p"] (by decide) [[1, 2, 3], [4, 5, 6]] 1 (by decide)).1

/-- With two parameters named `a`, the first one is lost. -/
example : (pyDict (namedColumns ["a", "a", "b"] [[1, 2, 3]])).length < 3 :=
  (C222_names_violated ["a", "a", "b"] [[1, 2, 3]] 0 1 (by omega) "a" rfl rfl).1

example : LastOf ["a", "a", "b"] "a" 1 := by
  refine ⟨rfl, fun j hj => ?_⟩
  rcases (by omega : j = 2 ∨ 3 ≤ j) with rfl | h
  · decide
  · rw [List.getElem?_eq_none (by simpa using h)]; simp

end Verif.Journal
