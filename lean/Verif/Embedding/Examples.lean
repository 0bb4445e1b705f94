import Verif.Embedding.Props

/-!
# Examples and violations for C142 and C143
-/

namespace Verif.Embedding.Examples

open Verif.Distance (Stats Row)
open Verif.Statistics Verif.Embedding Verif.Embedding.Props

/-! ## Sizes do not determine the network -/

/-- A network with one input, one hidden unit and two outputs, inside of the wrapper: the parameters. -/
def wrappedState : Dict :=
  [([.attr "net", .attr "fc_in", .attr "weight"], .matrix 1 [[0]]), ([.attr "net", .attr "fc_in", .attr "bias"], .vector [0]),
   ([.attr "net", .attr "fc_out", .attr "weight"], .matrix 1 [[1], [0]]), ([.attr "net", .attr "fc_out", .attr "bias"], .vector [0, 0])]

/-- Statistics learned by score matching, with the default nonlinearity. -/
noncomputable def learned : Neural := ⟨⟨discard (defaultNet softplus 1 2 (some [1])), wrappedState, .eval, none⟩, 1, false, none, []⟩

theorem learned_declared (act : ℝ → ℝ) : Declared (discard (defaultNet act 1 2 (some [1]))) wrappedState := by
  simp [Declared, wrappedState, discard, defaultNet, defaultEntries, hiddenEntries, layerEntries, Tensor.shape]

theorem expand_plain (s : Stats) : expand 1 false s = s := by simp [expand, powers]

theorem wrapped_value (act : ℝ → ℝ) (x : ℝ) :
    Neural.statistics ⟨⟨discard (defaultNet act 1 2 (some [1])), wrappedState, .eval, none⟩, 1, false, none, []⟩ 0 [[x]] = some ⟨1, [[act 0]]⟩ := by
  simp [Neural.statistics, Statistics.statistics, toArray, Net.apply, discard, defaultNet, defaultForward, linear, wrappedState, unwrap, Dict.get,
    onAll, hiddenLoop, dropLast, expand_plain, rescale]

/-- **C142 does not hold for networks with another nonlinearity.** Statistics learned by
`ExponentialFamilyScoreMatching` with its default network are saved; reading the file with the sizes of the network,
as in the example of the package, succeeds and gives other statistics: for every observation the saved object
gives `log 2`, the one read gives `0`. -/
theorem C142_violated (path : String) (fs : Files) : ∃ history fs' e',
    scoreStatistics learned.net false [] [] = some learned ∧ learned.save path none fs = .ok history ∧ history.getLast? = some fs' ∧
      fromFile fs' path ⟨none, some 1, some 2, some [1]⟩ none 1 false none [] = .ok e' ∧
      ∀ x, learned.statistics 0 [[x]] = some ⟨1, [[Real.log 2]]⟩ ∧ e'.statistics 0 [[x]] = some ⟨1, [[0]]⟩ := by
  obtain ⟨history, fs', h1, h2, h3, -, -⟩ := save_files learned path none fs rfl
  refine ⟨history, fs', ⟨⟨discard (defaultNet relu 1 2 (some [1])), wrappedState, .eval, none⟩, 1, false, none, []⟩, rfl, h1, h2, ?_, ?_⟩
  · have := reload_sizes softplus 1 2 (some [1]) true wrappedState (learned_declared softplus) none path none fs' h3 rfl
    unfold fromFile
    simp only [Spec.choose, this]
    rfl
  · intro x
    refine ⟨?_, ?_⟩
    · unfold learned
      rw [wrapped_value]
      norm_num [softplus]
    · rw [wrapped_value]
      simp [relu]

/-! ## The mode -/

/-- A network with dropout: in training mode every second call drops the input. -/
def dropout : Class :=
  ⟨[([.attr "scale"], [1])], fun _ s => some s, fun n _ s => if n % 2 = 0 then some s else some (onAll (fun _ => 0) s)⟩

def dropoutState : Dict := [([.attr "scale"], .vector [1])]

/-- Statistics learned with this network and no validation set: 400 epochs, starting in training mode. -/
def noisy : Neural := ⟨⟨dropout, dropoutState, fitMode false 400 .train, none⟩, 1, false, none, []⟩

theorem noisy_mode : fitMode false 400 .train = .train := fitMode_pos _ _ _ (by norm_num)

theorem noisy_value (n : Nat) (x : ℝ) : noisy.statistics n [[x]] = some ⟨1, [[if n % 2 = 0 then x else 0]]⟩ := by
  unfold noisy
  rw [noisy_mode]
  simp only [Neural.statistics, Statistics.statistics, toArray, Net.apply, dropout, List.all_nil, if_true]
  split_ifs with h <;> simp [onAll, expand_plain, rescale]

/-- **C143 does not hold.** A network with dropout, trained without a validation set, is left in training mode:
the statistics of the same data differ from call to call. After saving and reading with the same class they are
different again (**C142**). -/
theorem C143_violated (path : String) (fs : Files) : noisy.statistics 0 [[1]] ≠ noisy.statistics 1 [[1]] ∧
    ∃ history fs' e', noisy.save path none fs = .ok history ∧ history.getLast? = some fs' ∧
      fromFile fs' path ⟨some dropout, none, none, none⟩ none 1 false none [] = .ok e' ∧ noisy.statistics 1 [[1]] ≠ e'.statistics 1 [[1]] := by
  refine ⟨by rw [noisy_value, noisy_value]; simp, ?_⟩
  obtain ⟨history, fs', h1, h2, h3, -, -⟩ := save_files noisy path none fs rfl
  refine ⟨history, fs', ⟨⟨dropout, dropoutState, .eval, none⟩, 1, false, none, []⟩, h1, h2, ?_, ?_⟩
  · have hp : Proper dropout := by simp [Proper, dropout]
    have hd : Declared dropout dropoutState := rfl
    have := load_either (net := ⟨dropout, dropoutState, .train, none⟩) hp (.inl rfl) hd h3 (ps := none) rfl
    unfold fromFile
    simp only [Spec.choose, this]
    rfl
  · rw [noisy_value]
    simp [Neural.statistics, Statistics.statistics, toArray, Net.apply, dropout, expand_plain, rescale]

/-! ## Crash points -/

/-- A linear network with one weight. -/
def oneWeight (a : ℝ) : Dict := [([.attr "fc_in", .attr "weight"], .matrix 1 [[a]]), ([.attr "fc_in", .attr "bias"], .vector [0])]

/-- A scaler that multiplies by `c`. -/
noncomputable def times (c : ℝ) : Scaler := fun s => some (onAll (fun x => c * x) s)

/-- The statistics `a * (c * x)`. -/
noncomputable def scaled (a c : ℝ) : Neural := ⟨⟨defaultNet relu 1 1 (some []), oneWeight a, .eval, some (times c)⟩, 1, false, none, []⟩

theorem scaled_value (a c x : ℝ) (n : Nat) : (scaled a c).statistics n [[x]] = some ⟨1, [[c * x * a]]⟩ := by
  simp [scaled, Neural.statistics, Statistics.statistics, toArray, Net.apply, times, defaultNet, defaultForward, linear, oneWeight, Dict.get,
    onAll, expand_plain, rescale]

/-- The hypotheses of `C142_sizes_partial` hold for these statistics: saved and read again, they have the same values. -/
theorem scaled_round (a c : ℝ) (fs : Files) : ∃ history fs', (scaled a c).save "net.pth" (some "scaler.pkl") fs = .ok history ∧
    history.getLast? = some fs' ∧ ∃ e', fromFile fs' "net.pth" ⟨none, some 1, some 1, some []⟩ (some "scaler.pkl") 1 false none [] = .ok e' ∧
      ∀ x, e'.statistics 0 [[x]] = some ⟨1, [[c * x * a]]⟩ := by
  obtain ⟨history, fs', h1, h2, e', h3, h4⟩ := C142_sizes_partial 1 1 (some []) (scaled a c) rfl rfl none rfl "net.pth" (some "scaler.pkl") fs
    ⟨"scaler.pkl", rfl, by decide⟩
  exact ⟨history, fs', h1, h2, e', h3, fun x => (h4 0 0 _).trans (scaled_value a c x 0)⟩

/-- **C142, crash points.** Saving writes the network before the scaler. If it is interrupted between the two, the
files hold the new network and the old scaler: reading them succeeds and gives statistics that are neither those
saved before nor those being saved. -/
theorem C142_crash_violated (fs : Files) : ∃ h0 fs0 h1 crash e',
    (scaled 2 10).save "net.pth" (some "scaler.pkl") fs = .ok h0 ∧ h0.getLast? = some fs0 ∧
    (scaled 3 100).save "net.pth" (some "scaler.pkl") fs0 = .ok h1 ∧ crash ∈ h1 ∧
    fromFile crash "net.pth" ⟨none, some 1, some 1, some []⟩ (some "scaler.pkl") 1 false none [] = .ok e' ∧
    e'.statistics 0 [[1]] = some ⟨1, [[30]]⟩ ∧ (scaled 2 10).statistics 0 [[1]] = some ⟨1, [[20]]⟩ ∧
    (scaled 3 100).statistics 0 [[1]] = some ⟨1, [[300]]⟩ := by
  obtain ⟨h0, fs0, a1, a2, a3, a4, -⟩ := save_files (scaled 2 10) "net.pth" (some "scaler.pkl") fs ⟨"scaler.pkl", rfl, by decide⟩
  refine ⟨h0, fs0, _, (fs0.write "net.pth" .broken).write "net.pth" (.dict (oneWeight 3)), scaled 3 10, a1, a2, rfl, ?_, ?_, ?_, ?_, ?_⟩
  · simp [scaled]
  · have := load_either (net := (scaled 3 10).net) (proper_default relu 1 1 (some [])) (.inl rfl) rfl
      (fs := (fs0.write "net.pth" .broken).write "net.pth" (.dict (oneWeight 3))) (path := "net.pth") (ps := some "scaler.pkl")
      (write_same _ _ _)
      ⟨"scaler.pkl", rfl, by
        rw [write_other _ _ (by decide), write_other _ _ (by decide), a4 (times 10) "scaler.pkl" rfl rfl]⟩
    unfold fromFile
    simp only [Spec.choose, this]
    rfl
  · rw [scaled_value]; norm_num
  · rw [scaled_value]; norm_num
  · rw [scaled_value]; norm_num

end Verif.Embedding.Examples
