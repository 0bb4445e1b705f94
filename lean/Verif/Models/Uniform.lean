import Verif.Models.Props
/-
Property theorems C236: the bounds that `Uniform` accepts, continuousmodels.py 40-64 and 85-87.
-/
namespace Verif.Models

/-- The numbers `rng.uniform(low, high)` makes of numbers `us` of `[0, 1]`, coordinate by coordinate: `Uniform.forward_simulate`,
continuousmodels.py 85-87, for one sample. Trusted: numpy returns `low + (high - low) * u`. -/
noncomputable def uniformDraw (lo hi us : List ℝ) : List ℝ := List.zipWith (fun e u => e.1 + (e.2 - e.1) * u) (List.zip lo hi) us

/-- The check of the input values, coordinate by coordinate. -/
theorem uniform_input_iff (lo hi : List ℝ) (h : hi.length = lo.length) :
    uniformCheckInput lo.length (lo ++ hi) ↔ ∀ i (hi' : i < lo.length), lo[i] ≤ hi[i] := by
  unfold uniformCheckInput
  constructor
  · rintro ⟨-, hall⟩ i hi'
    obtain ⟨l, u, hl, hu, hlu⟩ := hall i hi'
    rw [List.getElem?_append_left hi', List.getElem?_eq_getElem hi'] at hl
    rw [List.getElem?_append_right (by omega), Nat.add_sub_cancel, List.getElem?_eq_getElem (by omega)] at hu
    cases hl
    cases hu
    exact hlu
  · intro hall
    refine ⟨by rw [List.length_append]; omega, fun j hj => ⟨lo[j], hi[j], ?_, ?_, hall j hj⟩⟩
    · rw [List.getElem?_append_left hj, List.getElem?_eq_getElem hj]
    · rw [List.getElem?_append_right (by omega), Nat.add_sub_cancel, List.getElem?_eq_getElem (by omega)]

/-- C236. `Uniform` accepts its bounds exactly if there is a value that it accepts as output with these bounds. -/
theorem C236_bounds (lo hi : List ℝ) (h : hi.length = lo.length) :
    uniformCheckInput lo.length (lo ++ hi) ↔ ∃ x : List ℝ, x.length = lo.length ∧ uniformCheckOutput lo hi x = true := by
  rw [uniform_input_iff lo hi h]
  constructor
  · intro hall
    exact ⟨lo, rfl, (uniform_check_iff lo hi lo rfl h).2 fun i hi' => ⟨le_rfl, hall i hi'⟩⟩
  · rintro ⟨x, hx, hc⟩ i hi'
    have := (uniform_check_iff lo hi x hx.symm (h.trans hx.symm)).1 hc i (by omega)
    exact this.1.trans this.2

/-- C236. With accepted bounds every draw is accepted as output, whatever numbers of `[0, 1]` the generator returns. -/
theorem C236_draws (lo hi us : List ℝ) (h : hi.length = lo.length) (hus : us.length = lo.length)
    (hu : ∀ u ∈ us, 0 ≤ u ∧ u ≤ 1) (hin : uniformCheckInput lo.length (lo ++ hi)) :
    (uniformDraw lo hi us).length = lo.length ∧ uniformCheckOutput lo hi (uniformDraw lo hi us) = true := by
  have hlen : (uniformDraw lo hi us).length = lo.length := by simp [uniformDraw]; omega
  refine ⟨hlen, (uniform_check_iff lo hi _ hlen.symm (h.trans hlen.symm)).2 fun i hi' => ?_⟩
  have hle := (uniform_input_iff lo hi h).1 hin i (by omega)
  obtain ⟨h0, h1⟩ := hu us[i] (List.getElem_mem _)
  have hx : (uniformDraw lo hi us)[i] = lo[i] + (hi[i] - lo[i]) * us[i] := by simp [uniformDraw]
  rw [hx]
  constructor <;> nlinarith

/-- C236. With bounds that are not accepted no draw could be stored: every value is refused. -/
theorem C236_refused (lo hi x : List ℝ) (h : hi.length = lo.length) (hx : x.length = lo.length)
    (hin : ¬ uniformCheckInput lo.length (lo ++ hi)) : uniformCheckOutput lo hi x = false := by
  cases hc : uniformCheckOutput lo hi x with
  | false => rfl
  | true => exact absurd ((C236_bounds lo hi h).2 ⟨x, hx, hc⟩) hin

/-- Equal bounds are accepted, and so is their one value, but the volume that `pdf` divides by (continuousmodels.py 115) is zero:
C73 needs lower bounds below upper bounds. -/
theorem C236_equal_bounds (a : ℝ) : uniformCheckInput 1 [a, a] ∧ uniformCheckOutput [a] [a] [a] = true ∧
    (List.zipWith (· - ·) [a] [a]).prod = 0 :=
  ⟨(uniform_input_iff [a] [a] rfl).2 (by simp), by simp [uniformCheckOutput], by simp⟩

/-- Two coordinates with bounds that are accepted, and two that are not. -/
example : uniformCheckInput 2 [0, 5, 1, 5] ∧ ¬ uniformCheckInput 2 [0, 5, 1, 4] := by
  constructor
  · refine (uniform_input_iff [0, 5] [1, 5] rfl).2 fun i hi => ?_
    match i, hi with
    | 0, _ => norm_num
    | 1, _ => norm_num
  · intro hc
    have := (uniform_input_iff [0, 5] [1, 4] rfl).1 hc 1 (by simp)
    norm_num at this

end Verif.Models
