import Verif.Mcmc.Balance
/-
C81: bounds given by name apply to the parameter of that name. C52 for one bounded parameter.
-/
namespace Verif.Mcmc

open Transform

theorem foldl_set_length {β γ : Type} (idx : γ → Nat) (val : γ → β) (l : List γ) (init : List β) :
    (l.foldl (fun a e => a.set (idx e) (val e)) init).length = init.length := by
  induction l generalizing init with
  | nil => rfl
  | cons e l ih => simp [ih]

theorem foldl_set_other {β γ : Type} (idx : γ → Nat) (val : γ → β) (l : List γ) (init : List β) (i : Nat) (h : ∀ e ∈ l, idx e ≠ i) :
    (l.foldl (fun a e => a.set (idx e) (val e)) init)[i]? = init[i]? := by
  induction l generalizing init with
  | nil => rfl
  | cons e l ih =>
    simp only [List.foldl_cons]
    rw [ih _ (fun e he => h e (by simp [he])), List.getElem?_set_ne (h e (by simp))]

theorem foldl_set_mem {β γ : Type} (idx : γ → Nat) (val : γ → β) (l : List γ) (init : List β) (e : γ) (he : e ∈ l)
    (hn : ∀ e' ∈ l, idx e' = idx e → e' = e) (hi : idx e < init.length) :
    (l.foldl (fun a e => a.set (idx e) (val e)) init)[idx e]? = some (val e) := by
  induction l generalizing init with
  | nil => simp at he
  | cons a l ih =>
    simp only [List.foldl_cons]
    by_cases hel : e ∈ l
    · exact ih _ hel (fun e' he' => hn e' (by simp [he'])) (by simpa using hi)
    · have : a = e := by rcases List.mem_cons.1 he with h | h; exacts [h.symm, absurd h hel]
      subst this
      rw [foldl_set_other _ _ _ _ _ (fun e' he' h => hel (by rw [← hn e' (by simp [he']) h]; exact he'))]
      simp [hi]

/-- The index found for a name, when names are not repeated. -/
theorem index_eq {names : List String} (hn : names.Nodup) {name : String} {i : Nat} (hi : names[i]? = some name) :
    (names.zipIdx.reverse.find? fun e => e.1 == name).elim 0 (·.2) = i := by
  cases hf : names.zipIdx.reverse.find? fun e => e.1 == name with
  | none =>
    rw [List.find?_eq_none] at hf
    have : (name, i) ∈ names.zipIdx := List.mk_mem_zipIdx_iff_getElem?.2 hi
    exact absurd (hf (name, i) (by simpa using this)) (by simp)
  | some y =>
    have h1 := List.find?_some hf
    have h2 := List.mem_of_find?_eq_some hf
    simp only [beq_iff_eq] at h1
    rw [List.mem_reverse] at h2
    have h3 : names[y.2]? = some name := by rw [← h1]; exact List.mk_mem_zipIdx_iff_getElem?.1 (by simpa using h2)
    simp only [Option.elim_some]
    obtain ⟨q1, q2⟩ := List.getElem?_eq_some_iff.1 h3
    obtain ⟨q3, q4⟩ := List.getElem?_eq_some_iff.1 hi
    exact (List.Nodup.getElem_inj_iff hn).1 (q2.trans q4.symm)

/-- **C81.** For parameters with different names: bounds for an unknown name raise a `KeyError`; an upper bound without a lower one is not supported; otherwise the transformer has one
pair of bounds per parameter, in the order of the parameters: the one given under its name, and none if no bounds are given for it. -/
theorem C81_bounds (names : List String) (hn : names.Nodup) (bounds : List (String × Bound)) (hd : (bounds.map Prod.fst).Nodup) :
    ((∃ e ∈ bounds, e.1 ∉ names) → mkBounds names bounds = .error .keyError) ∧
    ((∀ e ∈ bounds, e.1 ∈ names) → (∃ e ∈ bounds, e.2.1 = none ∧ e.2.2 ≠ none) → mkBounds names bounds = .error (.transform .notImplemented)) ∧
    ((∀ e ∈ bounds, e.1 ∈ names) → (∀ e ∈ bounds, e.2.1 = none → e.2.2 = none) →
      ∃ bs : List Bound, mkBounds names bounds = .ok bs ∧ bs.length = names.length ∧
        ∀ (i : Nat) (name : String), names[i]? = some name → (∀ b, (name, b) ∈ bounds → bs[i]? = some b) ∧ ((∀ b, (name, b) ∉ bounds) → bs[i]? = some (none, none))) := by
  let index (name : String) : Nat := (names.zipIdx.reverse.find? fun e => e.1 == name).elim 0 (·.2)
  let lo := bounds.foldl (fun l e => l.set (index e.1) e.2.1) (List.replicate names.length (none : Option ℝ))
  let up := bounds.foldl (fun l e => l.set (index e.1) e.2.2) (List.replicate names.length (none : Option ℝ))
  have hmk : (∀ e ∈ bounds, e.1 ∈ names) → mkBounds names bounds = match Transform.new lo up with | .error e => .error (.transform e) | .ok bs => .ok bs := by
    intro hk
    rw [mkBounds, if_neg]
    · rfl
    · rw [List.any_eq_true]
      rintro ⟨e, he, h⟩
      simp [hk e he] at h
  have hlo : lo.length = names.length := by simp only [lo]; rw [foldl_set_length]; simp
  have hup : up.length = names.length := by simp only [up]; rw [foldl_set_length]; simp
  have hind : ∀ (i : Nat) (name : String), names[i]? = some name → index name = i := fun i name h => index_eq hn h
  have hget : (∀ e ∈ bounds, e.1 ∈ names) → ∀ (i : Nat) (name : String), names[i]? = some name →
      (∀ b, (name, b) ∈ bounds → lo[i]? = some b.1 ∧ up[i]? = some b.2) ∧ ((∀ b, (name, b) ∉ bounds) → lo[i]? = some none ∧ up[i]? = some none) := by
    intro hk i name hi
    have hlt : i < names.length := (List.getElem?_eq_some_iff.1 hi).1
    have hinj : ∀ e ∈ bounds, index e.1 = i → e.1 = name := by
      intro e he h
      obtain ⟨k, hk'⟩ := List.getElem?_of_mem (hk e he)
      rw [hind k e.1 hk'] at h
      subst h
      rw [hk'] at hi
      exact Option.some.inj hi
    constructor
    · intro b hb
      have hu : ∀ e' ∈ bounds, index e'.1 = index name → e' = (name, b) := by
        intro e' he' h
        rw [hind i name hi] at h
        have h1 := hinj e' he' h
        exact List.inj_on_of_nodup_map hd he' hb h1
      have h1 := foldl_set_mem (fun e : String × Bound => index e.1) (fun e => e.2.1) bounds (List.replicate names.length none) (name, b) hb hu (by simp [hind i name hi, hlt])
      have h2 := foldl_set_mem (fun e : String × Bound => index e.1) (fun e => e.2.2) bounds (List.replicate names.length none) (name, b) hb hu (by simp [hind i name hi, hlt])
      simp only [hind i name hi] at h1 h2
      exact ⟨h1, h2⟩
    · intro hb
      have hne : ∀ e ∈ bounds, index e.1 ≠ i := by
        intro e he h
        apply hb e.2
        rw [← hinj e he h]
        exact he
      have h1 := foldl_set_other (fun e : String × Bound => index e.1) (fun e => e.2.1) bounds (List.replicate names.length none) i hne
      have h2 := foldl_set_other (fun e : String × Bound => index e.1) (fun e => e.2.2) bounds (List.replicate names.length none) i hne
      rw [List.getElem?_replicate, if_pos hlt] at h1 h2
      exact ⟨h1, h2⟩
  obtain ⟨c1, c2, c3⟩ := C55_constructor lo up
  refine ⟨?_, ?_, ?_⟩
  · rintro ⟨e, he, h⟩
    rw [mkBounds, if_pos]
    rw [List.any_eq_true]
    exact ⟨e, he, by simpa using h⟩
  · intro hk ⟨e, he, h1, h2⟩
    obtain ⟨i, hi⟩ := List.getElem?_of_mem (hk e he)
    obtain ⟨g1, g2⟩ := (hget hk i e.1 hi).1 e.2 he
    rw [hmk hk, c2 (by rw [hlo, hup])]
    refine ⟨(e.2.1, e.2.2), ?_, h1, h2⟩
    refine List.mem_of_getElem? (i := i) ?_
    rw [List.getElem?_zip_eq_some]
    exact ⟨g1, g2⟩
  · intro hk hno
    have hall : ∀ (i : Nat) (name : String), names[i]? = some name →
        (∀ b, (name, b) ∈ bounds → (lo.zip up)[i]? = some b) ∧ ((∀ b, (name, b) ∉ bounds) → (lo.zip up)[i]? = some (none, none)) := by
      intro i name hi
      obtain ⟨g1, g2⟩ := hget hk i name hi
      constructor
      · intro b hb; rw [List.getElem?_zip_eq_some]; exact g1 b hb
      · intro hb; rw [List.getElem?_zip_eq_some]; exact g2 hb
    refine ⟨lo.zip up, ?_, by simp [hlo, hup], hall⟩
    rw [hmk hk, c3 (by rw [hlo, hup])]
    intro b hb hb1
    obtain ⟨i, hi⟩ := List.getElem?_of_mem hb
    have hlt : i < names.length := by
      have := (List.getElem?_eq_some_iff.1 hi).1
      simpa [hlo, hup] using this
    obtain ⟨g1, g2⟩ := hall i names[i] (List.getElem?_eq_getElem hlt)
    by_cases hm : ∃ b', (names[i], b') ∈ bounds
    · obtain ⟨b', hb'⟩ := hm
      have := g1 b' hb'
      rw [hi] at this
      obtain rfl := Option.some.inj this
      exact hno _ hb' hb1
    · have := g2 fun b' hb' => hm ⟨b', hb'⟩
      rw [hi] at this
      obtain rfl := Option.some.inj this
      rfl

/-- Three parameters, bounds for two of them. -/
example : ∃ bs, mkBounds ["a", "b", "c"] [("c", (some 0, some 1)), ("a", (some 2, none))] = .ok bs ∧ bs = [(some 2, none), (none, none), (some 0, some 1)] :=
  ⟨_, rfl, rfl⟩

/-! ### One bounded parameter -/

variable {W Cov : Type}

/-- The transformer of C55 in the sampler: `none` when it raises (or when the result is not a number). -/
structure Bounded (env : Env W Num (List Num) Cov) (f32 : ℝ → ℝ) (bs : List Bound) : Prop where
  tr : ∀ θ, env.tr θ = (transform f32 bs θ).toOption
  inv : ∀ t, env.inv t = (inverse f32 bs t).toOption
  jac : ∀ θ, env.jac θ = (jac f32 bs θ).toOption

/-- **C52 is violated for one bounded parameter**: whatever the model, the bounds, the starting point, the numbers of steps and the random numbers, the call raises. -/
theorem C52_one_bounded_violated (env : Env W Num (List Num) Cov) (f32 : ℝ → ℝ) (b : Bound) (hb : Bounded env f32 [b]) (a : Args Num Cov) (w : W) (counter : Nat) :
    fresh env a w counter = none := by
  have ht : ∀ θ, env.tr θ = none := by
    intro θ
    rw [hb.tr, transform]
    split
    · rfl
    · rename_i hl
      split
      · rfl
      · split
        · rfl
        · rename_i ys hy
          have hlen : ys.length = 1 := by
            have := congrArg List.length ((collect_eq_some _ _).1 hy)
            simp only [ne_eq, not_not] at hl
            simpa [hl] using this.symm
          simp [unsqueeze, hlen, Except.toOption]
  simp [fresh, begin_, ht]

/-- **C54 with bounds**: the assumption of `C54_resume` holds with and without bounds. Without them (`DummyTransformer`, transformers.py 416-432) both directions return their argument; with
bounds for two or more parameters it holds because proposals are vectors of floats. -/
theorem C54_transformers :
    (∀ (env : Env W Num (List Num) Cov), (∀ θ, env.tr θ = some θ) → (∀ t, env.inv t = some t) →
      ∀ cov t w θ, env.inv (env.propose cov t w).2 = some θ → env.tr θ = some (env.propose cov t w).2) ∧
    (∀ (env : Env W Num (List Num) Cov) (f32 : ℝ → ℝ) (bs : List Bound), Bounded env f32 bs → (∀ b ∈ bs, Proper f32 b) → bs.length ≠ 1 →
      (∀ cov t w, ∃ r : List ℝ, (env.propose cov t w).2 = r.map .real) →
      ∀ cov t w θ, env.inv (env.propose cov t w).2 = some θ → env.tr θ = some (env.propose cov t w).2) := by
  constructor
  · intro env h1 h2 cov t w θ h
    rw [h2] at h
    rw [h1, ← Option.some.inj h]
  · intro env f32 bs hb hp h1 hr cov t w θ h
    obtain ⟨-, h2, -⟩ := C55_partial f32 bs hp
    obtain ⟨r, hr⟩ := hr cov t w
    rw [hr] at h ⊢
    rw [hb.inv] at h
    by_cases hl : r.length = bs.length
    · obtain ⟨x, e1, -, e3⟩ := h2 h1 r hl
      rw [e1] at h
      simp only [Except.toOption, Option.some.injEq] at h
      rw [← h, hb.tr, e3]
      rfl
    · rw [inverse, if_pos (by simpa using hl)] at h
      simp [Except.toOption] at h

end Verif.Mcmc
