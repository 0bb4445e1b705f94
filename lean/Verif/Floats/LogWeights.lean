import Verif.Floats.Choice
import Mathlib.Data.List.MinMax
import Mathlib.Order.Lattice
/-
C171: the weights of `PMC` for log-likelihoods of every size.
-/
namespace Verif.Floats

/-- The largest of the numbers that are not minus infinity. -/
noncomputable def largest : List (Option ℝ) → Option ℝ
  | [] => none
  | none :: l => largest l
  | some x :: l => match largest l with
    | none => some x
    | some y => some (max x y)

/-- `np.exp(new_log_weights - np.max(new_log_weights))`, abcpy/inferences.py 1338, rounded: `E` is the exponential function of numpy. A log-weight `none` is minus infinity, as for a particle without likelihood. If all are, the differences
are NaN, and so are all weights: `none`. Log-weights that are NaN or plus infinity are left out. -/
noncomputable def centred (R : Rounding) (E : ℝ → ℝ) (l : List (Option ℝ)) : Option (List ℝ) :=
  (largest l).map fun m => l.map fun x => match x with
    | none => 0
    | some x => E (R.r (x - m))

/-- What is assumed of numpy's `exp`: the value at 0 is right, and values at negative numbers lie between 0 and 1. They may underflow. -/
structure Exponential (E : ℝ → ℝ) : Prop where
  zero : E 0 = 1
  nonneg : ∀ x, 0 ≤ E x
  le_one : ∀ x, x ≤ 0 → E x ≤ 1

theorem largest_none (l : List (Option ℝ)) : largest l = none ↔ ∀ x ∈ l, x = none := by
  induction l with
  | nil => simp [largest]
  | cons a l ih =>
    cases a with
    | none => simp [largest, ih]
    | some x => cases h : largest l <;> simp [largest, h]

theorem largest_spec (l : List (Option ℝ)) (m : ℝ) (h : largest l = some m) : some m ∈ l ∧ ∀ x, some x ∈ l → x ≤ m := by
  induction l generalizing m with
  | nil => simp [largest] at h
  | cons a l ih =>
    cases a with
    | none =>
      obtain ⟨h1, h2⟩ := ih m (by simpa [largest] using h)
      exact ⟨by simp [h1], fun x hx => h2 x (by simpa using hx)⟩
    | some x =>
      cases hl : largest l with
      | none =>
        rw [largest, hl] at h
        cases h
        refine ⟨by simp, fun y hy => ?_⟩
        rcases List.mem_cons.1 hy with hy | hy
        · cases hy; exact le_rfl
        · have := (largest_none l).1 hl _ hy; cases this
      | some y =>
        rw [largest, hl] at h
        simp only [Option.some.injEq] at h
        subst h
        obtain ⟨h1, h2⟩ := ih y hl
        constructor
        · rcases max_choice x y with hm | hm <;> rw [hm] <;> simp [h1]
        · intro z hz
          rcases List.mem_cons.1 hz with hz | hz
          · cases hz; exact le_max_left _ _
          · exact (h2 z hz).trans (le_max_right _ _)

/-- **C171 (partial).** Let one of the log-weights be a number, the others numbers of any size or minus infinity. Then `PMC` makes weights out of them: before normalisation they lie between zero and one, that of a particle with the largest
log-weight is exactly one, their sum is positive, and `choice` accepts the normalised weights, although both the exponential function and the division may underflow (`η`). The division is by the sum in any order. Missing: no log-weight is
a number. -/
theorem C171_partial (R : Rounding) (E : ℝ → ℝ) (hE : Exponential E) (D : ℝ → ℝ) (η : ℝ) (hη : 0 ≤ η) (hD : ∀ x, 0 ≤ x → 0 ≤ D x ∧ |D x - x| ≤ R.u * x + η) (l : List (Option ℝ)) (x : ℝ) (hx : some x ∈ l)
    (hn : 4 * l.length * R.u + 2 * l.length * η ≤ 2⁻¹ ^ 26) :
    ∃ ws, centred R E l = some ws ∧ ws.length = l.length ∧ (∀ w ∈ ws, 0 ≤ w ∧ w ≤ 1) ∧ (∀ (i : Nat) (y : ℝ), l[i]? = some (some y) → (∀ z, some z ∈ l → z ≤ y) → ws[i]? = some 1) ∧
      ∀ o o' : Order, o.terms = ws → o'.terms = ws.map (fun w => D (w / o.sum R)) → 0 < o.sum R ∧ Accepted R o' := by
  have r0 : R.r 0 = 0 := by have := R.err 0; simpa using this
  cases hm : largest l with
  | none => have := (largest_none l).1 hm _ hx; cases this
  | some m =>
    obtain ⟨m1, m2⟩ := largest_spec l m hm
    have hws : ∀ w ∈ l.map (fun x => match x with | none => 0 | some x => E (R.r (x - m))), 0 ≤ w ∧ w ≤ 1 := by
      intro w hw
      obtain ⟨y, hy, rfl⟩ := List.mem_map.1 hw
      cases y with
      | none => simp
      | some y =>
        refine ⟨hE.nonneg _, hE.le_one _ ?_⟩
        have := R.mono (y - m) 0 (by linarith [m2 y hy])
        rwa [r0] at this
    refine ⟨_, by rw [centred, hm]; rfl, by simp, hws, ?_, ?_⟩
    · intro i y hi hy
      have : y = m := le_antisymm (m2 y (List.mem_of_getElem? hi)) (hy m m1)
      subst this
      simp [hi, r0, hE.zero]
    · intro o o' ho ho'
      refine accepted_of R D η hη hD o o' (fun w hw => (hws w (ho ▸ hw)).1) ⟨1, ?_, one_pos⟩ ?_ (by rw [ho]; exact ho')
      · rw [ho]
        exact List.mem_map.2 ⟨some m, m1, by simp [r0, hE.zero]⟩
      · rw [ho, List.length_map]; exact hn

/-- C171 fails if no particle has a likelihood, for any number of particles: all weights are NaN. -/
theorem C171_violated (R : Rounding) (E : ℝ → ℝ) (l : List (Option ℝ)) : centred R E l = none ↔ ∀ x ∈ l, x = none := by
  rw [centred, Option.map_eq_none_iff, largest_none]

/-- **C171, the scale of the likelihood does not matter.** In exact arithmetic the weights are the same if all likelihoods are multiplied by the same factor, whatever its size. -/
theorem C171_scale (u : Rounding) (hu : ∀ x, u.r x = x) (E : ℝ → ℝ) (l : List (Option ℝ)) (c : ℝ) : centred u E (l.map fun x => x.map (· + c)) = centred u E l := by
  have hl : largest (l.map fun x => x.map (· + c)) = (largest l).map (· + c) := by
    induction l with
    | nil => rfl
    | cons a l ih =>
      cases a with
      | none => simpa [largest] using ih
      | some x =>
        simp only [List.map_cons, Option.map_some, largest, ih]
        cases largest l with
        | none => rfl
        | some y => simp [max_add_add_right]
  rw [centred, centred, hl]
  cases largest l with
  | none => rfl
  | some m =>
    simp only [Option.map_some, Option.some.injEq, List.map_map]
    apply List.map_congr_left
    intro x _
    cases x with
    | none => rfl
    | some x => simp [hu]

/-- The assumptions are met by Python's floats with an exponential function that underflows below -700, and by three particles with log-likelihoods -100000, -5 and minus infinity. Without centring all weights would be zero if the second one were
missing. -/
example : let E : ℝ → ℝ := fun x => if x < -700 then 0 else if x ≤ 0 then 1 / (1 - x) else 1
    let l : List (Option ℝ) := [some (-100000), some (-5), none]
    Exponential E ∧ some (-5) ∈ l ∧ 4 * (l.length : ℝ) * binary64.u + 2 * l.length * 0 ≤ 2⁻¹ ^ 26 ∧ (∀ x, 0 ≤ x → 0 ≤ fl x ∧ |fl x - x| ≤ binary64.u * x + 0) ∧ centred binary64 E [some (-100000)] = some [1] := by
  intro E l
  have hE : E 0 = 1 := by simp only [E]; norm_num
  refine ⟨⟨hE, fun x => ?_, fun x hx => ?_⟩, by simp [l], ?_, fun x hx => ?_, ?_⟩
  · simp only [E]
    split
    · exact le_rfl
    · split
      · exact div_nonneg (by norm_num) (by linarith)
      · norm_num
  · simp only [E]
    split
    · norm_num
    · rw [div_le_one (by linarith)]; linarith
  · simp only [l, List.length_cons, List.length_nil]
    show (4 * ((0 + 1 + 1 + 1 : Nat) : ℝ) * 2⁻¹ ^ 53 + _ ≤ _)
    norm_num
  · have e := binary64.err x
    rw [abs_of_nonneg hx] at e
    have m := binary64.mono 0 x hx
    refine ⟨?_, by rw [add_zero]; exact e⟩
    have : binary64.r 0 = 0 := by simp [binary64, fl]
    rw [this] at m
    exact m
  · have : binary64.r 0 = 0 := by simp [binary64, fl]
    simp [centred, largest, this, hE]

end Verif.Floats
