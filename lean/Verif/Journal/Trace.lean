import Verif.Journal.Plot
/-!
# C185, C186: what `Journal.traceplot` and `Journal.plot_ESS` draw

Model of `abcpy/output.py` 857-884 and 962-1012. Sizes, ticks and colours are left out.
-/
namespace Verif.Journal

/-! ### Model -/

/-- A panel of the trace plot: its title and its lines. A line is given by its heights; the horizontal positions are 0, 1, 2, ... -/
structure Trace where
  title : String
  lines : List (List ℝ)

/-- `ax.plot(a)` with one argument: a number is one point, a vector one line, a matrix one line per column. -/
def plotLines : Arr → List (List ℝ)
  | .number x => [[x]]
  | .vector v => [v]
  | .matrix rows => (List.range (rows.headD []).length).map fun j => rows.map fun r => r.getD j 0

/-- `traceplot`, lines 987-1012. `rates`: the configuration has acceptance rates; `history` is `names_and_parameters`, which has for every name one list of components per sample. `plt.subplots` does not make figures without panels
(1002). -/
noncomputable def traceplot (rates : Bool) (history : List (List (String × List (List ℝ)))) (toShow : Option (List String)) (iteration : Option Int) : Except PlotError (List Trace) :=
  if !rates then .error .runtimeError
  else match history.head? with
    | none => .error .indexError
    | some d => let names := toShow.getD (d.map Prod.fst)
      if ¬ names.all fun n => (d.map Prod.fst).contains n then .error .keyError
      else match Models.pyIndex history (iteration.getD (history.length - 1)) with
        | none => .error .indexError
        | some p => if names.length = 0 then .error .valueError
          else match collect (names.map fun n => (look p n).map fun s => (⟨n, plotLines (squeeze s)⟩ : Trace)) with
            | none => .error .keyError
            | some l => .ok l

/-- A scatter plot with a horizontal line. -/
structure Scatter where
  points : List (ℕ × ℝ)
  line : ℝ

/-- `plot_ESS`, lines 871-884, of a journal with its weights and effective sample sizes (lists with one entry). -/
noncomputable def plotEss (j : J (List ℝ)) : Except PlotError Scatter :=
  if j.type = 0 then .error .runtimeError
  else match (j.data .weights).getLast? with
    | none => .error .indexError
    | some w => .ok ⟨(j.data .ess).zipIdx.map fun e => (e.2 + 1, e.1.headD 0), w.length⟩

/-- What samplers do at the end of a step, e.g. inferences.py 948-949. -/
noncomputable def J.record (j : J (List ℝ)) (w : List ℝ) : J (List ℝ) := (j.add .weights w).add .ess [essOf w]

/-! ### Specification -/

/-- There is one line for each of `d` components, and it has for each sample the height of that component in that sample. -/
def Follows (samples : List (List ℝ)) (d : Nat) (lines : List (List ℝ)) : Prop :=
  lines.length = d ∧ ∀ k, k < d → ∃ line, lines[k]? = some line ∧ line.length = samples.length ∧ ∀ (j : Nat) (s : List ℝ), samples[j]? = some s → line[j]? = s[k]?

/-! ### Trace plots -/

theorem follows_plotLines (samples : List (List ℝ)) (d : Nat) (hd : 0 < d) (h : ∀ s ∈ samples, s.length = d) (h2 : 2 ≤ samples.length ∨ d = 1 ∧ samples ≠ []) :
    Follows samples d (plotLines (squeeze samples)) := by
  have one : d = 1 → Follows samples d [samples.map fun r => r.headD 0] := by
    rintro rfl
    refine ⟨rfl, fun k hk => ⟨samples.map fun r => r.headD 0, by simp [show k = 0 by omega], by simp, fun j s hj => ?_⟩⟩
    have hl := h s (List.mem_of_getElem? hj)
    obtain ⟨x, rfl⟩ := List.length_eq_one_iff.1 hl
    simp [hj, show k = 0 by omega]
  have many : 2 ≤ samples.length → d ≠ 1 → Follows samples d ((List.range (samples.headD []).length).map fun j => samples.map fun r => r.getD j 0) := by
    intro hn hd1
    have e : (samples.headD []).length = d := by
      cases samples with
      | nil => simp at hn
      | cons a l => exact h a (by simp)
    rw [e]
    refine ⟨by simp, fun k hk => ⟨samples.map fun r => r.getD k 0, by simp [hk], by simp, fun j s hj => ?_⟩⟩
    have hl := h s (List.mem_of_getElem? hj)
    simp [hj, List.getD_eq_getElem?_getD, List.getElem?_eq_getElem (show k < s.length by omega)]
  unfold squeeze
  split
  · rename_i x
    have : d = 1 := (h [x] (by simp)).symm
    simpa [plotLines] using one this
  · rename_i v hv
    rcases h2 with h2 | ⟨rfl, -⟩
    · simp at h2
    · have := h v (by simp)
      obtain ⟨x, rfl⟩ := List.length_eq_one_iff.1 this
      exact absurd rfl (hv x)
  · rename_i h3 h4
    have hn : 2 ≤ samples.length := by
      rcases samples with _ | ⟨a, _ | ⟨b, l⟩⟩
      · simp at h2
      · exact absurd rfl (h4 a)
      · simp
    by_cases hd1 : d = 1
    · rw [if_pos (by simpa using fun s hs => (h s hs).trans hd1)]
      exact one hd1
    · rw [if_neg ?_]
      · exact many hn hd1
      · obtain ⟨s, hs⟩ : ∃ s, s ∈ samples := List.exists_mem_of_length_pos (by omega)
        simp only [List.all_eq_true, decide_eq_true_eq, not_forall]
        exact ⟨s, hs, by rw [h s hs]; exact hd1⟩

/-- **C185, partial.** For a journal with acceptance rates and the samples of one chain (the journal of `MCMCMetropoliHastings`), the trace plot has for every requested parameter, in this order, a panel with its name and with lines
that follow its components through the chain, if the chain has at least two samples or the parameter has one component. Missing: chains with one sample. -/
theorem C185_partial (chain : List (String × List (List ℝ))) (names : List String) (hn : names ≠ []) (d : String → Nat)
    (h : ∀ n ∈ names, ∃ s, look chain n = some s ∧ 0 < d n ∧ (∀ v ∈ s, v.length = d n) ∧ (2 ≤ s.length ∨ d n = 1 ∧ s ≠ [])) :
    ∃ panels, traceplot true [chain] (some names) none = .ok panels ∧ panels.map Trace.title = names ∧
      ∀ p ∈ panels, ∃ s, look chain p.title = some s ∧ Follows s (d p.title) p.lines := by
  have hk : (names.all fun n => (chain.map Prod.fst).contains n) = true := by
    simp only [List.all_eq_true, List.contains_eq_mem, decide_eq_true_eq]
    intro n hn
    obtain ⟨s, hs, -⟩ := h n hn
    simp only [look, Option.map_eq_some_iff] at hs
    obtain ⟨e, he, -⟩ := hs
    have := List.find?_some he
    exact List.mem_map.2 ⟨e, List.mem_of_find?_eq_some he, by simpa using this⟩
  have hl : names.length ≠ 0 := by simpa using hn
  have hp : Models.pyIndex [chain] 0 = some chain := rfl
  obtain ⟨l, hl'⟩ : ∃ l, collect (names.map fun n => (look chain n).map fun s => (⟨n, plotLines (squeeze s)⟩ : Trace)) = some l := by
    refine (collect_isSome _ fun o ho => ?_).imp fun _ h => h.1
    obtain ⟨n, hn, rfl⟩ := List.mem_map.1 ho
    obtain ⟨s, hs, -⟩ := h n hn
    simp [hs]
  have hm := (collect_eq_some _ _).1 hl'
  refine ⟨l, ?_, ?_, ?_⟩
  · unfold traceplot
    simp only [Bool.not_true, Bool.false_eq_true, if_false, List.head?_cons, Option.getD_some, hk, not_true_eq_false, List.length_singleton, Nat.cast_one, Option.getD_none, sub_self, hp, hl, hl']
  · have e := congrArg (List.map fun o : Option Trace => (o.map Trace.title).getD "") hm
    simp only [List.map_map] at e
    have e1 : ∀ n ∈ names, ((fun o : Option Trace => (o.map Trace.title).getD "") ∘ fun n => (look chain n).map fun s => (⟨n, plotLines (squeeze s)⟩ : Trace)) n = n := by
      intro n hn
      obtain ⟨s, hs, -⟩ := h n hn
      simp [hs]
    rw [List.map_congr_left e1, List.map_id''] at e
    · rw [e]; simp [Function.comp_def]
    · intro _; rfl
  · intro p hp
    have : some p ∈ l.map some := List.mem_map_of_mem hp
    rw [← hm] at this
    obtain ⟨n, hn, e⟩ := List.mem_map.1 this
    obtain ⟨s, hs, hd, hv, h2⟩ := h n hn
    rw [hs] at e
    simp only [Option.map_some, Option.some.injEq] at e
    subst e
    exact ⟨s, hs, follows_plotLines s _ hd hv h2⟩

/-- **C185 is violated** by chains with one sample: for a parameter with two components there is one line, which goes through the two components as if they were two steps. -/
theorem C185_violated (x y : ℝ) : ∃ p, traceplot true [[("mu", [[x, y]])]] (some ["mu"]) none = .ok [p] ∧ p.lines = [[x, y]] ∧ ¬ Follows [[x, y]] 2 p.lines := by
  refine ⟨⟨"mu", [[x, y]]⟩, ?_, rfl, fun h => by simpa using h.1⟩
  simp [traceplot, look, Models.pyIndex, squeeze, plotLines, collect]

example : ∃ s, look [("mu", [[(1 : ℝ), 2], [3, 4]]), ("s", [[5], [6]])] "mu" = some s ∧ 0 < 2 ∧ (∀ v ∈ s, v.length = 2) ∧ (2 ≤ s.length ∨ 2 = 1 ∧ s ≠ []) :=
  ⟨[[1, 2], [3, 4]], by simp [look], by simp, by simp, by simp⟩

/-- **C185, exactly.** Whether the lines follow the components, for samples of a parameter with `d` components: always, unless there is only one sample and more than one component. Then there is one line, and it goes through the
components. -/
theorem C185_exact (samples : List (List ℝ)) (d : Nat) (hd : 0 < d) (hs : samples ≠ []) (h : ∀ s ∈ samples, s.length = d) :
    (Follows samples d (plotLines (squeeze samples)) ↔ ¬ (samples.length = 1 ∧ 1 < d)) ∧ ∀ s, samples = [s] → 1 < d → plotLines (squeeze samples) = [s] := by
  have single : ∀ s, samples = [s] → 1 < d → plotLines (squeeze samples) = [s] := by
    rintro s rfl h1
    have hl := h s (by simp)
    rcases s with _ | ⟨a, _ | ⟨b, l⟩⟩
    · simp at hl; omega
    · simp at hl; omega
    · rfl
  refine ⟨⟨fun hf ⟨h1, h2⟩ => ?_, fun hn => follows_plotLines samples d hd h ?_⟩, single⟩
  · obtain ⟨s, rfl⟩ := List.length_eq_one_iff.1 h1
    rw [single s rfl h2] at hf
    have := hf.1
    simp at this
    omega
  · have := List.length_pos_iff.2 hs
    by_cases h1 : samples.length = 1
    · exact .inr ⟨by by_contra h2; exact hn ⟨h1, by omega⟩, hs⟩
    · exact .inl (by omega)

example : ¬ Follows [[(1 : ℝ), 2]] 2 (plotLines (squeeze [[1, 2]])) := by
  rw [(C185_exact [[1, 2]] 2 (by simp) (by simp) (by simp)).1]
  simp

/-- Journals of other samplers are refused, and so are names that are not in the journal. -/
theorem C185_refused (history : List (List (String × List (List ℝ)))) (chain : List (String × List (List ℝ))) (names : List String) (toShow : Option (List String)) (iteration : Option Int) :
    traceplot false history toShow iteration = .error .runtimeError ∧
    ((∃ n ∈ names, look chain n = none) → traceplot true (chain :: history) (some names) iteration = .error .keyError) := by
  refine ⟨rfl, ?_⟩
  rintro ⟨n, hn, h⟩
  have hk : ¬ (names.all fun n => (chain.map Prod.fst).contains n) = true := by
    simp only [List.all_eq_true, List.contains_eq_mem, decide_eq_true_eq, not_forall]
    refine ⟨n, hn, fun hm => ?_⟩
    obtain ⟨e, he, rfl⟩ := List.mem_map.1 hm
    simp only [look, Option.map_eq_none_iff, List.find?_eq_none] at h
    simpa using h e he
  unfold traceplot
  simp only [Bool.not_true, Bool.false_eq_true, if_false, List.head?_cons, Option.getD_some, hk, not_false_eq_true, if_true]

/-! ### Effective sample sizes -/

theorem sum_affine (w : List ℝ) (a b : ℝ) : (w.map fun x => (a * x - b) ^ 2).sum = a ^ 2 * (w.map fun x => x ^ 2).sum - 2 * a * b * w.sum + w.length * b ^ 2 := by
  induction w with
  | nil => simp
  | cons x w ih =>
    simp only [List.map_cons, List.sum_cons, ih, List.length_cons, Nat.cast_add, Nat.cast_one]
    ring

theorem sum_zero {w : List ℝ} (h0 : ∀ x ∈ w, 0 ≤ x) (h : w.sum = 0) : ∀ x ∈ w, x = 0 := by
  induction w with
  | nil => simp
  | cons a w ih =>
    have h1 := h0 a (by simp)
    have h2 : 0 ≤ w.sum := List.sum_nonneg fun y hy => h0 y (by simp [hy])
    simp only [List.sum_cons] at h
    intro x hx
    rcases List.mem_cons.1 hx with rfl | hx
    · linarith
    · exact ih (fun y hy => h0 y (by simp [hy])) (by linarith) x hx

/-- The effective sample size is the number of particles only if all weights are equal. -/
theorem ess_eq_length (w : List ℝ) (hw : ∀ x ∈ w, 0 ≤ x) (hs : 0 < w.sum) : essOf w = w.length ↔ ∀ x ∈ w, ∀ y ∈ w, x = y := by
  refine ⟨fun h => ?_, (C31_ess w hw hs).2.2.2⟩
  have hsq : (w.map fun x => x ^ 2).sum ≠ 0 := by
    intro h0
    have := sq_sum_le w
    rw [h0, mul_zero] at this
    have : 0 < w.sum ^ 2 := by positivity
    linarith
  rw [essOf_eq w hs.ne', div_eq_iff hsq] at h
  have hz : (w.map fun x => ((w.length : ℝ) * x - w.sum) ^ 2).sum = 0 := by
    rw [sum_affine]
    have e : (w.length : ℝ) * w.sum ^ 2 = w.length ^ 2 * (w.map fun x => x ^ 2).sum := by rw [h]; ring
    nlinarith [e]
  have hx : ∀ x ∈ w, (w.length : ℝ) * x = w.sum := by
    intro x hx
    have := sum_zero (w := w.map fun x => ((w.length : ℝ) * x - w.sum) ^ 2) (fun y hy => by
      obtain ⟨x, -, rfl⟩ := List.mem_map.1 hy
      positivity) hz _ (List.mem_map_of_mem hx)
    have := pow_eq_zero_iff (two_ne_zero) |>.1 this
    linarith
  intro x h1 y h2
  have hl : (w.length : ℝ) ≠ 0 := by
    intro h0
    have := hx x h1
    rw [h0, zero_mul] at this
    exact hs.ne this
  exact mul_left_cancel₀ hl ((hx x h1).trans (hx y h2).symm)

theorem record_data (j : J (List ℝ)) (hj : j.type = 1) (ws : List (List ℝ)) : (ws.foldl J.record j).type = 1 ∧ (ws.foldl J.record j).data .weights = j.data .weights ++ ws ∧
    (ws.foldl J.record j).data .ess = j.data .ess ++ ws.map fun w => [essOf w] := by
  induction ws generalizing j with
  | nil => simp [hj]
  | cons w ws ih =>
    have h1 : (j.record w).type = 1 := by simp [J.record, J.add, hj]
    obtain ⟨a, b, c⟩ := ih (j.record w) h1
    refine ⟨a, ?_, ?_⟩
    · rw [List.foldl_cons, b]; simp [J.record, J.add, hj]
    · rw [List.foldl_cons, c]; simp [J.record, J.add, hj]

/-- **C186, what is drawn.** After steps with weights `ws`, the plot has one point for each step, at the number of the step, with the effective sample size of its weights as height. -/
theorem C186_points (j : J (List ℝ)) (hj : J.new 1 = some j) (ws : List (List ℝ)) (hw : ws ≠ []) :
    ∃ s, plotEss (ws.foldl J.record j) = .ok s ∧ s.points.length = ws.length ∧ (∀ (i : Nat) (w : List ℝ), ws[i]? = some w → s.points[i]? = some (i + 1, essOf w)) ∧
      ∃ last, ws.getLast? = some last ∧ s.line = last.length := by
  simp only [J.new, or_true, if_true, Option.some.injEq] at hj
  subst hj
  obtain ⟨a, b, c⟩ := record_data ⟨1, fun _ => []⟩ rfl ws
  simp only [List.nil_append] at b c
  obtain ⟨last, hlast⟩ : ∃ last, ws.getLast? = some last := Option.isSome_iff_exists.1 (by simpa using hw)
  refine ⟨_, by unfold plotEss; rw [a, b, hlast]; simp only [one_ne_zero, if_false]; rfl, ?_, ?_, last, hlast, rfl⟩
  · simp [c]
  · intro i w hi
    simp [c, hi]

/-- **C186, partial.** If all populations have the same number of particles, every point is between one and the line, and on the line only if all weights of the step are equal. Missing: populations of different sizes (C186_sizes). -/
theorem C186_line_partial (j : J (List ℝ)) (hj : J.new 1 = some j) (ws : List (List ℝ)) (hw : ws ≠ []) (n : Nat) (size : ∀ w ∈ ws, w.length = n) (h0 : ∀ w ∈ ws, ∀ x ∈ w, 0 ≤ x)
    (hs : ∀ w ∈ ws, 0 < w.sum) :
    ∃ s, plotEss (ws.foldl J.record j) = .ok s ∧ s.line = n ∧ (∀ p ∈ s.points, 1 ≤ p.2 ∧ p.2 ≤ s.line) ∧
      ∀ (i : Nat) (w : List ℝ) (p : ℕ × ℝ), ws[i]? = some w → s.points[i]? = some p → (p.2 = s.line ↔ ∀ x ∈ w, ∀ y ∈ w, x = y) := by
  obtain ⟨s, hs1, hs2, hs3, last, hlast, hline⟩ := C186_points j hj ws hw
  have hln : s.line = n := by rw [hline, size last (List.mem_of_getLast? hlast)]
  refine ⟨s, hs1, hln, ?_, ?_⟩
  · intro p hp
    obtain ⟨i, hi⟩ := List.mem_iff_getElem?.1 hp
    have hlt : i < ws.length := by
      rw [← hs2]
      exact (List.getElem?_eq_some_iff.1 hi).1
    have hw' : ws[i]? = some ws[i] := List.getElem?_eq_getElem hlt
    have := hs3 i _ hw'
    rw [hi] at this
    have hm : ws[i] ∈ ws := List.getElem_mem hlt
    have h := C31_ess ws[i] (h0 _ hm) (hs _ hm)
    rw [size _ hm] at h
    rw [Option.some.inj this, hln]
    exact ⟨h.1, h.2.1⟩
  · intro i w p hi hp
    have := hs3 i w hi
    rw [hp] at this
    have hm : w ∈ ws := List.mem_of_getElem? hi
    rw [Option.some.inj this, hln, ← size w hm]
    exact ess_eq_length w (h0 w hm) (hs w hm)

example : ∃ j : J (List ℝ), J.new 1 = some j ∧ (∀ w ∈ [[(1 : ℝ), 1], [1, 3]], w.length = 2) ∧ (∀ w ∈ [[(1 : ℝ), 1], [1, 3]], ∀ x ∈ w, 0 ≤ x) ∧ ∀ w ∈ [[(1 : ℝ), 1], [1, 3]], 0 < w.sum :=
  ⟨_, rfl, by simp, by simp, by norm_num⟩

/-- **C186, populations of any sizes.** No point of a population that is not larger than the last one is above the line; it is on the line only if the population is as large as the last one and all its weights are equal. Points of larger
populations with equal weights are above the line. -/
theorem C186_sizes (j : J (List ℝ)) (hj : J.new 1 = some j) (ws : List (List ℝ)) (hw : ws ≠ []) (h0 : ∀ w ∈ ws, ∀ x ∈ w, 0 ≤ x) (hs : ∀ w ∈ ws, 0 < w.sum) :
    ∃ s last, plotEss (ws.foldl J.record j) = .ok s ∧ ws.getLast? = some last ∧ s.line = last.length ∧
      ∀ (i : Nat) (w : List ℝ), ws[i]? = some w → ∃ h, s.points[i]? = some (i + 1, h) ∧ 1 ≤ h ∧
        (w.length ≤ last.length → h ≤ s.line ∧ (h = s.line ↔ w.length = last.length ∧ ∀ x ∈ w, ∀ y ∈ w, x = y)) ∧
        (last.length < w.length → (∀ x ∈ w, ∀ y ∈ w, x = y) → s.line < h) := by
  obtain ⟨s, hs1, -, hs3, last, hlast, hline⟩ := C186_points j hj ws hw
  refine ⟨s, last, hs1, hlast, hline, fun i w hi => ⟨essOf w, hs3 i w hi, ?_⟩⟩
  have hm : w ∈ ws := List.mem_of_getElem? hi
  have h := C31_ess w (h0 w hm) (hs w hm)
  have he := ess_eq_length w (h0 w hm) (hs w hm)
  refine ⟨h.1, fun hle => ?_, fun hlt heq => ?_⟩
  · have hle' : (w.length : ℝ) ≤ last.length := by exact_mod_cast hle
    rw [hline]
    refine ⟨h.2.1.trans hle', fun e => ?_, fun ⟨e1, e2⟩ => ?_⟩
    · have e1 : (w.length : ℝ) = last.length := le_antisymm hle' (e ▸ h.2.1)
      exact ⟨by exact_mod_cast e1, he.1 (e.trans e1.symm)⟩
    · rw [he.2 e2, e1]
  · rw [hline, he.2 heq]
    exact_mod_cast hlt

/-- **C186 is violated** when the last population is smaller than an earlier one (a run is continued with fewer samples, see C111): with two particles in the first step and one in the second, the effective sample size of the first
step is drawn above the line called "Max theoretical value". -/
theorem C186_violated (j : J (List ℝ)) (hj : J.new 1 = some j) : ∃ s, plotEss ([[1 / 2, 1 / 2], [1]].foldl J.record j) = .ok s ∧ ∃ p ∈ s.points, p.1 = 1 ∧ s.line < p.2 := by
  obtain ⟨s, hs1, -, hs3, last, hlast, hline⟩ := C186_points j hj [[1 / 2, 1 / 2], [1]] (by simp)
  refine ⟨s, hs1, _, List.mem_of_getElem? (hs3 0 [1 / 2, 1 / 2] rfl), rfl, ?_⟩
  simp only [List.getLast?_cons_cons, List.getLast?_singleton, Option.some.injEq] at hlast
  subst hlast
  rw [hline]
  norm_num [essOf]

end Verif.Journal
