import Verif.Pmc.Restart
/-
C223, C224: what becomes of the thresholds that are passed to `PMCABC.sample`. `epsilon_init` may be a list, an array of floats or an array of integers; if there is one threshold for each step, the sampler works on
the caller's object itself (`abcpy/inferences.py` 837-838).
-/
namespace Verif.Pmc

variable {W Θ Y : Type} (env : Env W Θ Y)

/-! ### Model -/

/-- What `epsilon_init` is. -/
inductive Kind
  | list | floats | ints
  deriving DecidableEq

/-- The object passed as `epsilon_init`. -/
structure Given where
  kind : Kind
  values : List ℝ

/-- Assigning a float to an element: arrays of integers cut off the decimals. -/
noncomputable def store : Kind → ℝ → ℝ
  | .ints, x => if 0 ≤ x then (⌊x⌋ : ℝ) else (⌈x⌉ : ℝ)
  | _, x => x

/-- The thresholds after an assignment to element `i`. -/
noncomputable def assigned (k : Kind) (i : Nat) (arr : List (Option ℝ)) : List (Option ℝ) := arr.modify i (Option.map (store k))

/-- Lines 837-843: `epsilon_arr` is the caller's object or a new list. -/
def kindOf (steps : Nat) (g : Given) : Kind := if g.values.length = steps then g.kind else .list

/-- Iteration `t`, lines 875-941, as `pmcStep`, with the assignment of lines 903-907. -/
noncomputable def stepOf (k : Kind) (steps : Nat) (pct : ℝ) (fuel t : Nat) (start : List W) (s : State Θ) : Option (State Θ) :=
  (pmcStep env steps pct fuel t start s).map fun s => { s with epsArr := if t + 1 < steps then assigned k (t + 1) s.epsArr else s.epsArr }

/-- The journal, and whether its `configuration["epsilon_arr"]` is a list or an array. -/
structure Stored (Θ : Type) where
  j : Journal Θ
  kind : Kind

/-- `l += m`, line 958, where `l` is a list or an array of kind `k` and `m` of kind `k'`. A list is extended. An array adds the numbers to its own, if there are as many or only one; otherwise, if one of them is `None`, or if
floats are added to an array of integers, it raises (`none`). Simplified: the numbers in a list count as floats. -/
noncomputable def iadd (k : Kind) (l : List (Option ℝ)) (k' : Kind) (m : List (Option ℝ)) : Option (List (Option ℝ)) :=
  if k = .list then some (l ++ m)
  else if k = .ints ∧ k' ≠ .ints then none
  else match collect m with
    | none => none
    | some xs => if xs.length = l.length then some (List.zipWith (fun a x => a.map (· + x)) l xs) else match xs with
      | [x] => some (l.map fun a => a.map (· + x))
      | _ => none

/-- Lines 957-960, as `Journal.addEps`. -/
noncomputable def Stored.addEps (restarted : Bool) (k : Kind) (arr : List (Option ℝ)) (f : Stored Θ) : Option (Stored Θ) :=
  match restarted, f.j.epsArr with
  | true, some l => (iadd f.kind l k arr).map fun l => ⟨{ f.j with epsArr := some l }, f.kind⟩
  | _, _ => some ⟨{ f.j with epsArr := some arr }, k⟩

/-- Lines 943-960, as `write`. -/
noncomputable def writeOf (full restarted : Bool) (k : Kind) (steps t : Nat) (s : State Θ) (f : Stored Θ) : Option (Stored Θ) :=
  let j := if full ∨ t + 1 = steps then (match s.hist.getLast? with | some r => f.j.add r s.counter | none => f.j) else f.j
  Stored.addEps restarted k s.epsArr ⟨j, f.kind⟩

/-- The loop of lines 847-963. -/
noncomputable def loopOf (k : Kind) (steps : Nat) (pct : ℝ) (fuel : Nat) (full restarted : Bool) (start : Nat → List W) : Nat → Nat → State Θ → Stored Θ → Option (State Θ × Stored Θ)
  | 0, _, s, f => some (s, f)
  | n + 1, t, s, f => match stepOf env k steps pct fuel t (start t) s with
    | none => none
    | some s => match writeOf full restarted k steps t s f with
      | none => none
      | some f => loopOf k steps pct fuel full restarted start n (t + 1) s f

/-- Lines 818-873, as `opening`, with the assignment of line 858. -/
noncomputable def openingOf (steps : Nat) (g : Given) (pct : ℝ) (full : Bool) (before : Option (Pop Θ)) (counter : Nat) (file : Option (Stored Θ)) : Option (State Θ × Stored Θ) :=
  (opening steps g.values pct full before counter (file.map Stored.j)).map fun p =>
    (if steps = 0 ∨ file.isNone then p.1 else { p.1 with epsArr := assigned (kindOf steps g) 0 p.1.epsArr }, ⟨p.2, (file.map Stored.kind).getD .list⟩)

/-- `PMCABC.sample`, lines 810-965: the state at the end, the journal, and what the caller's object holds then. -/
noncomputable def sessionOf (steps : Nat) (g : Given) (pct : ℝ) (fuel : Nat) (full : Bool) (start : Nat → List W) (before : Option (Pop Θ)) (counter : Nat) (file : Option (Stored Θ)) :
    Option (State Θ × Stored Θ × List ℝ) :=
  match openingOf steps g pct full before counter file with
  | none => none
  | some (s, f) => (loopOf env (kindOf steps g) steps pct fuel full file.isSome start steps 0 s f).map fun r =>
    (r.1, r.2, if g.values.length = steps then r.1.epsArr.filterMap id else g.values)

/-! ### Lists and arrays of floats -/

theorem assigned_floats (k : Kind) (hk : k ≠ .ints) (i : Nat) (arr : List (Option ℝ)) : assigned k i arr = arr := by
  have : Option.map (store k) = id := by
    funext x
    cases k <;> cases x <;> first | rfl | exact absurd rfl hk
  rw [assigned, this]
  exact List.modify_id _ _

theorem stepOf_floats (k : Kind) (hk : k ≠ .ints) (steps : Nat) (pct : ℝ) (fuel t : Nat) (start : List W) (s : State Θ) :
    stepOf env k steps pct fuel t start s = pmcStep env steps pct fuel t start s := by
  unfold stepOf
  simp only [assigned_floats k hk, ite_self]
  exact Option.map_id'

theorem writeOf_list (full restarted : Bool) (k : Kind) (steps t : Nat) (s : State Θ) (f : Stored Θ) (hf : restarted = true → f.kind = .list) :
    ∃ k', writeOf full restarted k steps t s f = some ⟨write full restarted steps t s f.j, k'⟩ ∧ (restarted = true → f.j.epsArr.isSome → k' = .list) ∧ (restarted = false → k' = k) := by
  unfold writeOf write
  simp only
  generalize hj : (if full = true ∨ t + 1 = steps then (match s.hist.getLast? with | some r => f.j.add r s.counter | none => f.j) else f.j) = j
  have he : j.epsArr = f.j.epsArr := by
    rw [← hj]
    split
    · split <;> rfl
    · rfl
  unfold Stored.addEps Journal.addEps
  cases restarted with
  | false => exact ⟨k, rfl, by simp, fun _ => rfl⟩
  | true =>
    cases hl : j.epsArr with
    | none => exact ⟨k, rfl, fun _ h => by rw [← he, hl] at h; simp at h, by simp⟩
    | some l => exact ⟨.list, by simp [iadd, hf rfl], fun _ _ => rfl, by simp⟩

/-- A journal written by `PMCABC` whose thresholds are in a list. -/
def Plain (f : Stored Θ) : Prop := f.kind = .list ∧ f.j.epsArr.isSome

theorem write_isSome (full restarted : Bool) (steps t : Nat) (s : State Θ) (j : Journal Θ) : (write full restarted steps t s j).epsArr.isSome := by
  unfold write Journal.addEps
  simp only
  split <;> rfl

theorem loopOf_floats (k : Kind) (hk : k ≠ .ints) (steps : Nat) (pct : ℝ) (fuel : Nat) (full restarted : Bool) (start : Nat → List W) (n t : Nat) (s : State Θ) (f : Stored Θ)
    (hf : restarted = true → Plain f) :
    (loopOf env k steps pct fuel full restarted start n t s f).map (fun r => (r.1, r.2.j)) = sessionLoop env steps pct fuel full restarted start n t s f.j := by
  induction n generalizing t s f with
  | zero => rfl
  | succ n ih =>
    rw [loopOf, sessionLoop, stepOf_floats env k hk]
    cases pmcStep env steps pct fuel t (start t) s with
    | none => rfl
    | some s =>
      obtain ⟨k', h1, h2, -⟩ := writeOf_list full restarted k steps t s f fun h => (hf h).1
      simp only [h1]
      exact ih (t + 1) s _ fun h => ⟨h2 h (hf h).2, write_isSome _ _ _ _ _ _⟩

/-- With thresholds in a list or an array of floats, and a journal file (if any) with thresholds in a list, calls are those of `Pmc.Session`. -/
theorem sessionOf_floats (steps : Nat) (g : Given) (hk : g.kind ≠ .ints) (pct : ℝ) (fuel : Nat) (full : Bool) (start : Nat → List W) (before : Option (Pop Θ)) (counter : Nat) (file : Option (Stored Θ))
    (hf : ∀ f, file = some f → Plain f) :
    (sessionOf env steps g pct fuel full start before counter file).map (fun r => (r.1, r.2.1.j)) = session env steps g.values pct fuel full start before counter (file.map Stored.j) := by
  have hk' : kindOf steps g ≠ .ints := by unfold kindOf; split <;> simp [hk]
  unfold sessionOf session openingOf
  cases ho : opening steps g.values pct full before counter (file.map Stored.j) with
  | none => rfl
  | some p =>
    obtain ⟨s, j⟩ := p
    simp only [Option.map_some, assigned_floats _ hk', ite_self, Option.map_map]
    rw [show (file.map Stored.j).isSome = file.isSome by cases file <;> rfl]
    refine loopOf_floats env _ hk' steps pct fuel full file.isSome start steps 0 s ⟨j, _⟩ fun h => ?_
    obtain ⟨f, rfl⟩ := Option.isSome_iff_exists.1 h
    refine ⟨(hf f rfl).1, ?_⟩
    have hj : j = f.j := by
      unfold opening at ho
      cases hi : initEps g.values steps with
      | none => simp [hi] at ho
      | some arr =>
        simp only [hi, Option.map_some] at ho
        split at ho
        · simp only [Option.some.injEq, Prod.mk.injEq] at ho; exact ho.2.symm
        · obtain ⟨s', -, hs⟩ := Option.map_eq_some_iff.1 ho
          simp only [Prod.mk.injEq] at hs; exact hs.2.symm
    show j.epsArr.isSome
    rw [hj]
    exact (hf f rfl).2

/-! ### C223 -/

theorem sessionLoop_run (steps : Nat) (pct : ℝ) (fuel : Nat) (full restarted : Bool) (start : Nat → List W) (n t : Nat) (s : State Θ) (j : Journal Θ) :
    (sessionLoop env steps pct fuel full restarted start n t s j).map Prod.fst = pmcLoop env steps pct fuel start n t s := by
  induction n generalizing t s j with
  | zero => rfl
  | succ n ih =>
    rw [sessionLoop, pmcLoop]
    cases pmcStep env steps pct fuel t (start t) s with
    | none => rfl
    | some s => exact ih _ _ _

theorem filterMap_some {α β : Type} (l : List α) (f : α → β) : (l.map fun x => some (f x)).filterMap id = l.map f := by
  induction l with
  | nil => rfl
  | cons a l ih => simp

theorem thresholds_kept (steps : Nat) (epsInit : List ℝ) (pct : ℝ) (fuel : Nat) (full : Bool) (start : Nat → List W) (before : Option (Pop Θ)) (counter : Nat) (s : State Θ) (j : Journal Θ)
    (h : session env steps epsInit pct fuel full start before counter none = some (s, j)) :
    s.epsArr = s.hist.map (fun r => some r.eps) ∧ (0 < steps → j.epsArr = some s.epsArr) ∧ pmcRun env steps epsInit pct fuel start before counter = some s := by
  unfold session opening at h
  unfold pmcRun
  cases harr : initEps epsInit steps with
  | none => simp [harr] at h
  | some arr =>
    simp only [harr, Option.isSome_none] at h ⊢
    obtain ⟨-, h2⟩ := sessionLoop_spec env steps pct fuel full false start before arr counter ⟨full, [], [], none⟩ steps 0 _ s _ j (by omega)
      ⟨fun _ _ => rfl, fun _ => rfl, by omega⟩ (wrote_zero full false steps _ _ rfl (initEps_length _ _ _ harr)) h
    refine ⟨?_, fun hs => h2.fresh rfl hs, ?_⟩
    · apply List.ext_getElem?
      intro i
      rw [List.getElem?_map]
      by_cases hi : i < steps
      · exact h2.used i hi
      · rw [List.getElem?_eq_none (by rw [h2.arr]; omega), List.getElem?_eq_none (by rw [h2.len]; omega)]; rfl
    · rw [← sessionLoop_run env steps pct fuel full false start steps 0 _ ⟨full, [], [], none⟩, h]; rfl

/-- **C223, what the caller's object holds after a call.** With one threshold for each step, it holds the thresholds that were used, which are the given ones raised to the percentiles of the distances before. -/
theorem C223_exact (steps : Nat) (g : Given) (hk : g.kind ≠ .ints) (hl : g.values.length = steps) (pct : ℝ) (fuel : Nat) (full : Bool) (start : Nat → List W) (before : Option (Pop Θ)) (counter : Nat)
    (s : State Θ) (f : Stored Θ) (after : List ℝ) (h : sessionOf env steps g pct fuel full start before counter none = some (s, f, after)) :
    after = s.hist.map Rec.eps ∧ after.length = steps ∧ (∀ r, s.hist[0]? = some r → g.values[0]? = some r.eps) ∧
    ∀ (j : Nat) r r', s.hist[j]? = some r → s.hist[j + 1]? = some r' → ∃ q e, percentile r.distances pct = some q ∧ g.values[j + 1]? = some e ∧ r'.eps = max q e := by
  have h1 := sessionOf_floats env steps g hk pct fuel full start before counter none (by simp)
  rw [h] at h1
  obtain ⟨h2, -, h3⟩ := thresholds_kept env steps g.values pct fuel full start before counter s f.j h1.symm
  have ha : after = s.epsArr.filterMap id := by
    unfold sessionOf at h
    split at h
    · cases h
    · obtain ⟨r, -, hr⟩ := Option.map_eq_some_iff.1 h
      rw [if_pos hl] at hr
      simp only [Prod.mk.injEq] at hr
      rw [← hr.2.2, hr.1]
  obtain ⟨c1, c2, -⟩ := C39_given env steps g.values hl pct fuel start before counter s h3
  obtain ⟨arr, -, hi⟩ := inv_run env steps g.values pct fuel start before counter s h3
  have ha' : after = s.hist.map Rec.eps := by rw [ha, h2, filterMap_some]
  exact ⟨ha', by rw [ha', List.length_map, hi.len], c1, c2⟩

/-- **C223** with one threshold for several steps, or if no percentile exceeds the threshold given for the next step: the caller's thresholds stay as they are. -/
theorem C223_partial (steps : Nat) (g : Given) (hk : g.kind ≠ .ints) (pct : ℝ) (fuel : Nat) (full : Bool) (start : Nat → List W) (before : Option (Pop Θ)) (counter : Nat)
    (s : State Θ) (f : Stored Θ) (after : List ℝ) (h : sessionOf env steps g pct fuel full start before counter none = some (s, f, after))
    (hq : g.values.length = steps → ∀ (j : Nat) r q e, s.hist[j]? = some r → percentile r.distances pct = some q → g.values[j + 1]? = some e → q ≤ e) : after = g.values := by
  by_cases hl : g.values.length = steps
  · obtain ⟨h1, h2, h3, h4⟩ := C223_exact env steps g hk hl pct fuel full start before counter s f after h
    apply List.ext_getElem?
    intro i
    have hlen : s.hist.length = steps := by rw [← h2, h1, List.length_map]
    by_cases hi : i < steps
    · rw [h1, List.getElem?_map]
      obtain ⟨r, hr⟩ : ∃ r, s.hist[i]? = some r := ⟨_, List.getElem?_eq_getElem (by rw [hlen]; exact hi)⟩
      rw [hr]
      cases i with
      | zero => exact (h3 r hr).symm
      | succ i =>
        obtain ⟨r0, hr0⟩ : ∃ r, s.hist[i]? = some r := ⟨_, List.getElem?_eq_getElem (by rw [hlen]; omega)⟩
        obtain ⟨q, e, e1, e2, e3⟩ := h4 i r0 r hr0 hr
        rw [e2, Option.map_some, e3, max_eq_right (hq hl i r0 q e hr0 e1 e2)]
    · rw [List.getElem?_eq_none (by omega), List.getElem?_eq_none (by omega)]
  · unfold sessionOf at h
    split at h
    · cases h
    · obtain ⟨r, -, hr⟩ := Option.map_eq_some_iff.1 h
      rw [if_neg hl] at hr
      simp only [Prod.mk.injEq] at hr
      exact hr.2.2.symm

/-- **C223 fails** whenever a percentile exceeds the threshold given for the next step: the caller's object has been changed when the call returns. -/
theorem C223_violated (steps : Nat) (g : Given) (hk : g.kind ≠ .ints) (hl : g.values.length = steps) (pct : ℝ) (fuel : Nat) (full : Bool) (start : Nat → List W) (before : Option (Pop Θ)) (counter : Nat)
    (s : State Θ) (f : Stored Θ) (after : List ℝ) (h : sessionOf env steps g pct fuel full start before counter none = some (s, f, after))
    (j : Nat) (r : Rec Θ) (q e : ℝ) (hr : s.hist[j]? = some r) (hq : percentile r.distances pct = some q) (he : g.values[j + 1]? = some e) (hlt : e < q) : after[j + 1]? = some q ∧ after ≠ g.values := by
  obtain ⟨h1, h2, h3, h4⟩ := C223_exact env steps g hk hl pct fuel full start before counter s f after h
  have hlen : s.hist.length = steps := by rw [← h2, h1, List.length_map]
  have hj := (List.getElem?_eq_some_iff.1 he).1
  obtain ⟨r', hr'⟩ : ∃ r', s.hist[j + 1]? = some r' := ⟨_, List.getElem?_eq_getElem (by omega)⟩
  obtain ⟨q', e', e1, e2, e3⟩ := h4 j r r' hr hr'
  have hqq : q = q' := by rw [hq] at e1; exact Option.some.inj e1
  have hee : e = e' := by rw [he] at e2; exact Option.some.inj e2
  subst hqq hee
  have : after[j + 1]? = some q := by rw [h1, List.getElem?_map, hr', Option.map_some, e3, max_eq_left hlt.le]
  refine ⟨this, fun heq => ?_⟩
  rw [heq, he] at this
  exact hlt.ne (Option.some.inj this)

/-- **C223, calls one after the other with the same object.** In no step is the threshold of the second call below that of the first, whatever the random numbers of the two calls are. -/
theorem C223_again (steps : Nat) (k : Kind) (hk : k ≠ .ints) (given : List ℝ) (hl : given.length = steps) (pct : ℝ) (fuel fuel' : Nat) (full full' : Bool) (start start' : Nat → List W)
    (before before' : Option (Pop Θ)) (counter counter' : Nat) (s s' : State Θ) (f f' : Stored Θ) (after after' : List ℝ)
    (h : sessionOf env steps ⟨k, given⟩ pct fuel full start before counter none = some (s, f, after))
    (h' : sessionOf env steps ⟨k, after⟩ pct fuel' full' start' before' counter' none = some (s', f', after')) (i : Nat) (r r' : Rec Θ) (hr : s.hist[i]? = some r) (hr' : s'.hist[i]? = some r') :
    r.eps ≤ r'.eps := by
  obtain ⟨h1, h2, -, -⟩ := C223_exact env steps ⟨k, given⟩ hk hl pct fuel full start before counter s f after h
  obtain ⟨-, g2, g3, g4⟩ := C223_exact env steps ⟨k, after⟩ hk h2 pct fuel' full' start' before' counter' s' f' after' h'
  have ha : after[i]? = some r.eps := by rw [h1, List.getElem?_map, hr]; rfl
  cases i with
  | zero =>
    have := g3 r' hr'
    rw [ha] at this
    exact (Option.some.inj this).le
  | succ i =>
    obtain ⟨r0, hr0⟩ : ∃ r0, s'.hist[i]? = some r0 := ⟨_, List.getElem?_eq_getElem (by have := (List.getElem?_eq_some_iff.1 hr').1; omega)⟩
    obtain ⟨q, e, -, e2, e3⟩ := g4 i r0 r' hr0 hr'
    rw [ha] at e2
    rw [e3, ← Option.some.inj e2]
    exact le_max_right _ _

/-- Simulations whose distances are counted down by the worker. -/
noncomputable def countdown : Env ℝ ℝ ℝ where
  distMax := none
  dist := id
  pdf := fun _ => 1
  kernel := fun _ _ _ => 1
  held := id
  prior := fun w => (w, w)
  choose := fun _ w => (w, 0)
  perturb := fun _ _ w => (w, some w)
  sim := fun θ w => (w - 1, θ)

theorem countdown_prior (eps a : ℝ) (h : a ≤ eps) : resampleTask countdown eps none 3 a = some (a, a, 1) := by
  simp [resampleTask, resampleLoop, above, countdown, not_lt.2 h]

theorem countdown_near (eps b : ℝ) (p : Pop ℝ) (h : b ≤ eps) : resampleTask countdown eps (some p) 3 b = some (b, b, 1) := by
  simp [resampleTask, resampleLoop, proposeLoop, above, countdown, not_lt.2 h]

theorem countdown_far (eps b : ℝ) (p : Pop ℝ) (h : eps < b) (h1 : b - 1 ≤ eps) : resampleTask countdown eps (some p) 3 b = some (b - 1, b - 1, 2) := by
  simp [resampleTask, resampleLoop, proposeLoop, above, countdown, not_lt.2 h1, h]

theorem percentile_pair (a q : ℝ) (h0 : 0 ≤ q) (h1 : q ≤ 100) : percentile [a, a] q = some a := by
  obtain ⟨x, h, hb⟩ := percentile_between [a, a] q (by simp) h0 h1
  have := hb a a (by simp)
  rw [h, le_antisymm this.2 this.1]

/-- Two particles and two steps with thresholds 4 and `e`; the distances of the first step are `a`, and the tasks of the second step end with `c`. -/
theorem countdown_run (k : Kind) (a b c e x : ℝ) (n : Nat) (ha : a ≤ 4) (hx : x = store k (max a e)) (hb : ∀ p, resampleTask countdown x (some p) 3 b = some (c, c, n)) :
    ∃ s f, sessionOf countdown 2 ⟨k, [4, e]⟩ 50 3 true (fun t => if t = 0 then [a, a] else [b, b]) none 0 none = some (s, f, [4, x]) ∧ s.hist.map Rec.eps = [4, x] ∧
      s.hist.map Rec.params = [[a, a], [c, c]] ∧ s.hist.map Rec.distances = [[a, a], [c, c]] := by
  have hp := percentile_pair a 50 (by norm_num) (by norm_num)
  have s1 : stepOf countdown k 2 50 3 0 [a, a] ⟨[some 4, some e], none, 0, []⟩ =
      some ⟨[some 4, some x], some ⟨[a, a], [1 / 2, 1 / 2]⟩, 2, [⟨4, [a, a], [a, a], [1 / 2, 1 / 2]⟩]⟩ := by
    have hr0 : ∀ θ, rawWeight countdown 2 none θ = 1 / 2 := fun θ => by simp [rawWeight]
    simp [stepOf, pmcStep, countdown_prior 4 a ha, collect, nextEps, normalise, hr0, hp, assigned, hx]
    norm_num
  have s2 : ∃ w, stepOf countdown k 2 50 3 1 [b, b] ⟨[some 4, some x], some ⟨[a, a], [1 / 2, 1 / 2]⟩, 2, [⟨4, [a, a], [a, a], [1 / 2, 1 / 2]⟩]⟩ =
      some ⟨[some 4, some x], some ⟨[c, c], w⟩, 2 + (n + n), [⟨4, [a, a], [a, a], [1 / 2, 1 / 2]⟩, ⟨x, [c, c], [c, c], w⟩]⟩ := by
    refine ⟨normalise ([c, c].map (rawWeight countdown 2 (some ⟨[a, a], [1 / 2, 1 / 2]⟩))), ?_⟩
    simp [stepOf, pmcStep, hb, collect, nextEps]
  obtain ⟨w, s2⟩ := s2
  refine ⟨⟨[some 4, some x], some ⟨[c, c], w⟩, 2 + (n + n), [⟨4, [a, a], [a, a], [1 / 2, 1 / 2]⟩, ⟨x, [c, c], [c, c], w⟩]⟩,
    ⟨⟨true, [⟨4, [a, a], [a, a], [1 / 2, 1 / 2]⟩, ⟨x, [c, c], [c, c], w⟩], [2, 2 + (n + n)], some [some 4, some x]⟩, k⟩, ?_, rfl, rfl, rfl⟩
  have ho : openingOf 2 ⟨k, [4, e]⟩ 50 true (none : Option (Pop ℝ)) 0 none = some (⟨[some 4, some e], none, 0, []⟩, ⟨⟨true, [], [], none⟩, .list⟩) := by
    simp [openingOf, opening, initEps]
  unfold sessionOf
  rw [ho]
  simp only [kindOf, List.length_cons, List.length_nil, loopOf, if_true, s1, writeOf, Stored.addEps, Option.isSome_none, one_ne_zero, if_false, Nat.zero_add, s2]
  simp [Journal.add]

/-- **C223 fails in a simple setting.** One list of thresholds, 4 and 1, is used for two calls. After the first call it holds 4 and 3. The second call then accepts particles at distance 2, which the same call with the
thresholds 4 and 1 does not. -/
theorem C223_second_violated : ∃ s f, sessionOf countdown 2 ⟨.list, [4, 1]⟩ 50 3 true (fun t => if t = 0 then [3, 3] else [1, 1]) none 0 none = some (s, f, [4, 3]) ∧
    (∃ s f l, sessionOf countdown 2 ⟨.list, [4, 3]⟩ 50 3 true (fun t => if t = 0 then [0, 0] else [2, 2]) none 0 none = some (s, f, l) ∧ s.hist.map Rec.distances = [[0, 0], [2, 2]]) ∧
    ∃ s f l, sessionOf countdown 2 ⟨.list, [4, 1]⟩ 50 3 true (fun t => if t = 0 then [0, 0] else [2, 2]) none 0 none = some (s, f, l) ∧ s.hist.map Rec.distances = [[0, 0], [1, 1]] := by
  obtain ⟨s, f, h, -⟩ := countdown_run .list 3 1 1 1 3 1 (by norm_num) (by norm_num [store]) fun p => countdown_near 3 1 p (by norm_num)
  obtain ⟨s', f', h', -, -, d'⟩ := countdown_run .list 0 2 2 3 3 1 (by norm_num) (by norm_num [store]) fun p => countdown_near 3 2 p (by norm_num)
  obtain ⟨s'', f'', h'', -, -, d''⟩ := countdown_run .list 0 2 1 1 1 2 (by norm_num) (by norm_num [store]) fun p => by
    rw [countdown_far 1 2 p (by norm_num) (by norm_num)]; norm_num
  exact ⟨s, f, h, ⟨s', f', _, h', d'⟩, s'', f'', _, h'', d''⟩

/-! ### C224 -/

/-- What a run with thresholds of kind `k` keeps, after `t` steps. -/
structure Kept (k : Kind) (steps : Nat) (pct : ℝ) (arr : List (Option ℝ)) (t : Nat) (s : State Θ) : Prop where
  len : s.hist.length = t
  later : ∀ j, t < j → s.epsArr[j]? = arr[j]?
  first : t = 0 → s.epsArr[0]? = arr[0]?
  now : ∀ j, t = j + 1 → t < steps → ∃ r q e, s.hist[j]? = some r ∧ percentile r.distances pct = some q ∧ comb arr[t]? q = some e ∧ s.epsArr[t]? = some (some (store k e))
  link : ∀ j r r', s.hist[j]? = some r → s.hist[j + 1]? = some r' → ∃ q e, percentile r.distances pct = some q ∧ comb arr[j + 1]? q = some e ∧ r'.eps = store k e
  head : ∀ r, s.hist[0]? = some r → arr[0]? = some (some r.eps)
  within : ∀ r ∈ s.hist, ∀ d ∈ r.distances, d ≤ r.eps

theorem kept_step (k : Kind) (steps : Nat) (pct : ℝ) (fuel t : Nat) (start : List W) (arr : List (Option ℝ)) (s s' : State Θ) (hI : Kept k steps pct arr t s) (ht : t < steps)
    (h : stepOf env k steps pct fuel t start s = some s') : Kept k steps pct arr (t + 1) s' := by
  obtain ⟨s1, h1, rfl⟩ := Option.map_eq_some_iff.1 h
  obtain ⟨r, r1, r2, -, -, -, -, r3, -, -, r4, r5⟩ := pmcStep_spec env steps pct fuel t start s s1 h1
  have hnew : s1.hist[t]? = some r := by rw [r2, ← hI.len]; simp
  have hold : ∀ j, j < t → s1.hist[j]? = s.hist[j]? := fun j hj => by rw [r2, List.getElem?_append_left (by rw [hI.len]; exact hj)]
  refine ⟨by simp [r2, hI.len], ?_, by omega, ?_, ?_, ?_, ?_⟩
  · intro j hj
    simp only
    split
    · rw [assigned, List.getElem?_modify_ne _ _ (show t + 1 ≠ j by omega), r4 j hj, hI.later j (by omega)]
    · rw [r4 j hj, hI.later j (by omega)]
  · intro j hj hlt
    obtain ⟨q, e, e1, e2, e3⟩ := r5 hlt
    have hj' : j = t := by omega
    subst hj'
    refine ⟨r, q, e, hnew, e1, by rw [hI.later (j + 1) (by omega)] at e2; exact e2, ?_⟩
    simp only [if_pos hlt, assigned]
    rw [List.getElem?_modify_eq, e3]; rfl
  · intro j a b ha hb
    by_cases hj : j + 1 < t
    · rw [show (_ : State Θ).hist = s1.hist from rfl, hold j (by omega)] at ha
      rw [show (_ : State Θ).hist = s1.hist from rfl, hold _ hj] at hb
      exact hI.link j a b ha hb
    · have hlen : s1.hist.length = t + 1 := by simp [r2, hI.len]
      have hb' := (List.getElem?_eq_some_iff.1 hb).1
      simp only [hlen] at hb'
      have ht' : t = j + 1 := by omega
      subst ht'
      rw [show (_ : State Θ).hist = s1.hist from rfl, hold j (by omega)] at ha
      rw [show (_ : State Θ).hist = s1.hist from rfl, hnew] at hb
      obtain ⟨r', q, e, e1, e2, e3, e4⟩ := hI.now j rfl ht
      rw [e1] at ha
      rw [r1] at e4
      simp only [Option.some.injEq] at ha hb e4
      subst ha hb
      exact ⟨q, e, e2, e3, e4⟩
  · intro a ha
    rcases Nat.eq_zero_or_pos t with h0 | h0
    · subst h0
      rw [show (_ : State Θ).hist = s1.hist from rfl, hnew] at ha
      rw [← hI.first rfl, r1]
      simp only [Option.some.injEq] at ha
      rw [ha]
    · rw [show (_ : State Θ).hist = s1.hist from rfl, hold 0 h0] at ha
      exact hI.head a ha
  · intro a ha d hd
    simp only [r2, List.mem_append, List.mem_singleton] at ha
    rcases ha with ha | rfl
    · exact hI.within a ha d hd
    · exact r3 d hd

theorem kept_loop (k : Kind) (steps : Nat) (pct : ℝ) (fuel : Nat) (full restarted : Bool) (start : Nat → List W) (arr : List (Option ℝ)) (n t : Nat) (s s' : State Θ) (f f' : Stored Θ) (hn : t + n = steps)
    (hI : Kept k steps pct arr t s) (h : loopOf env k steps pct fuel full restarted start n t s f = some (s', f')) : Kept k steps pct arr steps s' := by
  induction n generalizing t s f with
  | zero =>
    simp only [loopOf, Option.some.injEq, Prod.mk.injEq] at h
    subst hn; rw [← h.1]; exact hI
  | succ n ih =>
    rw [loopOf] at h
    split at h
    · cases h
    · rename_i s1 hs
      split at h
      · cases h
      · rename_i f1 hf
        exact ih (t + 1) s1 f1 (by omega) (kept_step env k steps pct fuel t (start t) arr s s1 hI (by omega) hs) h

/-- The larger of a number and an integer that is not negative, cut off. -/
theorem store_ints (q : ℝ) (e : ℤ) (he : 0 ≤ e) : store .ints (max q e) = max (⌊q⌋ : ℝ) e := by
  have h0 : (0 : ℝ) ≤ max q e := le_trans (by exact_mod_cast he) (le_max_right _ _)
  rw [store, if_pos h0]
  rcases le_total q e with h | h
  · rw [max_eq_right h, Int.floor_intCast, max_eq_right]
    exact_mod_cast (Int.floor_le_floor h).trans (by rw [Int.floor_intCast])
  · rw [max_eq_left h, max_eq_left]
    exact_mod_cast Int.le_floor.2 h

/-- **C224, what a call does with thresholds in an array of integers**, one for each step: each percentile is cut off to an integer. -/
theorem C224_exact (steps : Nat) (values : List ℤ) (hl : values.length = steps) (h0 : ∀ x ∈ values, 0 ≤ x) (pct : ℝ) (fuel : Nat) (full : Bool) (start : Nat → List W) (before : Option (Pop Θ)) (counter : Nat)
    (s : State Θ) (f : Stored Θ) (after : List ℝ) (h : sessionOf env steps ⟨.ints, values.map fun x : ℤ => (x : ℝ)⟩ pct fuel full start before counter none = some (s, f, after)) :
    s.hist.length = steps ∧ (∀ r, s.hist[0]? = some r → ∃ e : ℤ, values[0]? = some e ∧ r.eps = (e : ℝ)) ∧ (∀ r ∈ s.hist, ∀ d ∈ r.distances, d ≤ r.eps) ∧
    ∀ (j : Nat) r r', s.hist[j]? = some r → s.hist[j + 1]? = some r' → ∃ q e, percentile r.distances pct = some q ∧ values[j + 1]? = some e ∧ r'.eps = max (⌊q⌋ : ℝ) e := by
  have hi : initEps (values.map fun x : ℤ => (x : ℝ)) steps = some (values.map fun x : ℤ => some (x : ℝ)) := by
    unfold initEps
    rw [if_pos (by simpa using hl), List.map_map]; rfl
  unfold sessionOf openingOf opening at h
  simp only [hi, Option.map_none, Option.map_some, Option.isNone_none, or_true, if_true, Option.isSome_none] at h
  obtain ⟨r, hr, hr'⟩ := Option.map_eq_some_iff.1 h
  have hs : r.1 = s := by simp only [Prod.mk.injEq] at hr'; exact hr'.1
  rw [show kindOf steps ⟨.ints, values.map fun x : ℤ => (x : ℝ)⟩ = .ints by simp [kindOf, hl]] at hr
  have hK := kept_loop env .ints steps pct fuel full false start (values.map fun x : ℤ => some (x : ℝ)) steps 0 _ r.1 _ r.2 (by omega)
    ⟨rfl, fun _ _ => rfl, fun _ => rfl, by omega, by simp, by simp, by simp⟩ hr
  rw [hs] at hK
  refine ⟨hK.len, fun a ha => ?_, hK.within, fun j a b ha hb => ?_⟩
  · have := hK.head a ha
    rw [List.getElem?_map, Option.map_eq_some_iff] at this
    obtain ⟨e, e1, e2⟩ := this
    exact ⟨e, e1, (Option.some.inj e2).symm⟩
  · obtain ⟨q, e, e1, e2, e3⟩ := hK.link j a b ha hb
    rw [List.getElem?_map, comb, Option.map_map] at e2
    obtain ⟨v, v1, v2⟩ := Option.map_eq_some_iff.1 e2
    refine ⟨q, v, e1, v1, ?_⟩
    simp only [Function.comp, Option.elim_some] at v2
    rw [e3, ← v2, store_ints q v (h0 v (List.mem_of_getElem? v1))]

/-- **C224 if the percentiles are integers**: the next threshold is the larger one of percentile and given threshold. -/
theorem C224_partial (steps : Nat) (values : List ℤ) (hl : values.length = steps) (h0 : ∀ x ∈ values, 0 ≤ x) (pct : ℝ) (fuel : Nat) (full : Bool) (start : Nat → List W) (before : Option (Pop Θ)) (counter : Nat)
    (s : State Θ) (f : Stored Θ) (after : List ℝ) (h : sessionOf env steps ⟨.ints, values.map fun x : ℤ => (x : ℝ)⟩ pct fuel full start before counter none = some (s, f, after))
    (j : Nat) (r r' : Rec Θ) (hr : s.hist[j]? = some r) (hr' : s.hist[j + 1]? = some r') (q : ℤ) (hq : percentile r.distances pct = some (q : ℝ)) :
    ∃ e, values[j + 1]? = some e ∧ r'.eps = max (q : ℝ) e := by
  obtain ⟨-, -, -, h4⟩ := C224_exact env steps values hl h0 pct fuel full start before counter s f after h
  obtain ⟨q', e, e1, e2, e3⟩ := h4 j r r' hr hr'
  rw [hq] at e1
  rw [← Option.some.inj e1, Int.floor_intCast] at e3
  exact ⟨e, e2, e3⟩

/-- **C224 fails** whenever a percentile exceeds the given threshold and is no integer: the next threshold is below the percentile. -/
theorem C224_violated (steps : Nat) (values : List ℤ) (hl : values.length = steps) (h0 : ∀ x ∈ values, 0 ≤ x) (pct : ℝ) (fuel : Nat) (full : Bool) (start : Nat → List W) (before : Option (Pop Θ)) (counter : Nat)
    (s : State Θ) (f : Stored Θ) (after : List ℝ) (h : sessionOf env steps ⟨.ints, values.map fun x : ℤ => (x : ℝ)⟩ pct fuel full start before counter none = some (s, f, after))
    (j : Nat) (r r' : Rec Θ) (hr : s.hist[j]? = some r) (hr' : s.hist[j + 1]? = some r') (q : ℝ) (e : ℤ) (hq : percentile r.distances pct = some q) (he : values[j + 1]? = some e) (hlt : (e : ℝ) < q)
    (hn : (⌊q⌋ : ℝ) ≠ q) : r'.eps < q := by
  obtain ⟨-, -, -, h4⟩ := C224_exact env steps values hl h0 pct fuel full start before counter s f after h
  obtain ⟨q', e', e1, e2, e3⟩ := h4 j r r' hr hr'
  rw [hq] at e1
  rw [he] at e2
  rw [e3, ← Option.some.inj e1, ← Option.some.inj e2]
  exact max_lt (lt_of_le_of_ne (Int.floor_le q) hn) hlt

/-- **C224 fails in a simple setting.** The thresholds 4 and 1 are given, and the distances of the first step are 5/2. With floats the second threshold is 5/2 and a particle at this distance is accepted; with integers the
second threshold is 2, and it is not. -/
theorem C224_integers_violated :
    (∃ s f l, sessionOf countdown 2 ⟨.floats, [4, 1]⟩ 50 3 true (fun t => if t = 0 then [5 / 2, 5 / 2] else [5 / 2, 5 / 2]) none 0 none = some (s, f, l) ∧ s.hist.map Rec.eps = [4, 5 / 2] ∧
      s.hist.map Rec.distances = [[5 / 2, 5 / 2], [5 / 2, 5 / 2]]) ∧
    ∃ s f l, sessionOf countdown 2 ⟨.ints, [4, 1]⟩ 50 3 true (fun t => if t = 0 then [5 / 2, 5 / 2] else [5 / 2, 5 / 2]) none 0 none = some (s, f, l) ∧ s.hist.map Rec.eps = [4, 2] ∧
      s.hist.map Rec.distances = [[5 / 2, 5 / 2], [3 / 2, 3 / 2]] := by
  have hfl : ⌊(5 / 2 : ℝ)⌋ = 2 := by rw [Int.floor_eq_iff]; norm_num
  have hst : store .ints (max (5 / 2) 1) = 2 := by
    rw [max_eq_left (by norm_num), store, if_pos (by norm_num), hfl]; norm_num
  obtain ⟨s, f, h, e, -, d⟩ := countdown_run .floats (5 / 2) (5 / 2) (5 / 2) 1 (5 / 2) 1 (by norm_num) (by norm_num [store]) fun p => countdown_near _ _ p le_rfl
  obtain ⟨s', f', h', e', -, d'⟩ := countdown_run .ints (5 / 2) (5 / 2) (3 / 2) 1 2 2 (by norm_num) hst.symm fun p => by
    rw [countdown_far 2 (5 / 2) p (by norm_num) (by norm_num)]; norm_num
  exact ⟨⟨s, f, _, h, e, d⟩, s', f', _, h', e', d'⟩

/-! ### Restarts from journals with arrays -/

/-- A call that works on an array of the caller's leaves the array in its journal. -/
theorem journal_kind (steps : Nat) (hs : 0 < steps) (g : Given) (pct : ℝ) (fuel : Nat) (full : Bool) (start : Nat → List W) (before : Option (Pop Θ)) (counter : Nat) (s : State Θ) (f : Stored Θ)
    (after : List ℝ) (h : sessionOf env steps g pct fuel full start before counter none = some (s, f, after)) : f.kind = kindOf steps g := by
  have loop : ∀ (n t : Nat) (s s' : State Θ) (f f' : Stored Θ), loopOf env (kindOf steps g) steps pct fuel full false start n t s f = some (s', f') → 0 < n ∨ f.kind = kindOf steps g → f'.kind = kindOf steps g := by
    intro n
    induction n with
    | zero =>
      intro t s s' f f' h hf
      simp only [loopOf, Option.some.injEq, Prod.mk.injEq] at h
      rw [← h.2]
      exact hf.resolve_left (by omega)
    | succ n ih =>
      intro t s s' f f' h hf
      rw [loopOf] at h
      split at h
      · cases h
      · rename_i s1 _
        obtain ⟨k', h1, -, h2⟩ := writeOf_list full false (kindOf steps g) steps t s1 f (by simp)
        rw [h1] at h
        exact ih _ _ _ _ _ h (Or.inr (h2 rfl))
  unfold sessionOf at h
  split at h
  · cases h
  · obtain ⟨r, hr, hr'⟩ := Option.map_eq_some_iff.1 h
    simp only [Prod.mk.injEq] at hr'
    rw [← hr'.2.1]
    exact loop _ _ _ _ _ _ hr (Or.inl hs)

theorem iadd_length (k k' : Kind) (hk : k ≠ .list) (l m out : List (Option ℝ)) (h : iadd k l k' m = some out) : out.length = l.length ∧ (m.length = l.length ∨ m.length = 1) := by
  unfold iadd at h
  rw [if_neg hk] at h
  split at h
  · cases h
  · split at h
    · cases h
    · rename_i xs hc
      have hx : m.length = xs.length := by
        have := congrArg List.length ((collect_eq_some _ _).1 hc)
        simpa using this
      split at h
      · rename_i hlen
        simp only [Option.some.injEq] at h
        rw [← h]
        exact ⟨by simp [hlen], Or.inl (hx.trans hlen)⟩
      · split at h
        · simp only [Option.some.injEq] at h
          rw [← h]
          exact ⟨by simp, Or.inr (by rw [hx]; rfl)⟩
        · cases h

theorem addEps_array (k : Kind) (arr : List (Option ℝ)) (f f' : Stored Θ) (hf : f.kind ≠ .list) (l : List (Option ℝ)) (hl : f.j.epsArr = some l) (h : Stored.addEps true k arr f = some f') :
    f'.kind = f.kind ∧ (∃ l', f'.j.epsArr = some l' ∧ l'.length = l.length) ∧ (arr.length = l.length ∨ arr.length = 1) := by
  unfold Stored.addEps at h
  rw [hl] at h
  simp only at h
  obtain ⟨l', h1, rfl⟩ := Option.map_eq_some_iff.1 h
  obtain ⟨h2, h3⟩ := iadd_length _ _ hf _ _ _ h1
  exact ⟨rfl, ⟨l', rfl, h2⟩, h3⟩

theorem writeOf_array (full : Bool) (k : Kind) (steps t : Nat) (s : State Θ) (f f' : Stored Θ) (hf : f.kind ≠ .list) (l : List (Option ℝ)) (hl : f.j.epsArr = some l)
    (h : writeOf full true k steps t s f = some f') : f'.kind = f.kind ∧ (∃ l', f'.j.epsArr = some l' ∧ l'.length = l.length) ∧ (s.epsArr.length = l.length ∨ s.epsArr.length = 1) := by
  unfold writeOf at h
  simp only at h
  generalize hj : (if full = true ∨ t + 1 = steps then (match s.hist.getLast? with | some r => f.j.add r s.counter | none => f.j) else f.j) = j at h
  have he : j.epsArr = some l := by
    rw [← hj, ← hl]
    split
    · split <;> rfl
    · rfl
  exact addEps_array k s.epsArr ⟨j, f.kind⟩ f' hf l he h

theorem stepOf_length (k : Kind) (steps : Nat) (pct : ℝ) (fuel t : Nat) (start : List W) (s s' : State Θ) (h : stepOf env k steps pct fuel t start s = some s') : s'.epsArr.length = s.epsArr.length := by
  obtain ⟨s1, h1, rfl⟩ := Option.map_eq_some_iff.1 h
  obtain ⟨eps, new, tries, r, -, -, -, -, -, -, r7⟩ := pmcStep_stage env steps pct fuel t start s s1 h1
  have := nextEps_length _ _ _ _ _ _ r7
  simp only
  split
  · rw [assigned, List.length_modify, this]
  · exact this

theorem opening_file (steps : Nat) (g : Given) (pct : ℝ) (full : Bool) (before : Option (Pop Θ)) (counter : Nat) (f0 f : Stored Θ) (s : State Θ)
    (h : openingOf steps g pct full before counter (some f0) = some (s, f)) : f = f0 ∧ s.epsArr.length = steps := by
  obtain ⟨p, hp, hp'⟩ := Option.map_eq_some_iff.1 h
  simp only [Prod.mk.injEq] at hp'
  obtain ⟨h1, h2⟩ := hp'
  have key : p.2 = f0.j ∧ p.1.epsArr.length = steps := by
    unfold opening at hp
    cases hi : initEps g.values steps with
    | none => simp [hi] at hp
    | some arr =>
      have hl := initEps_length _ _ _ hi
      simp only [hi, Option.map_some] at hp
      split at hp
      · simp only [Option.some.injEq] at hp; rw [← hp]; exact ⟨rfl, hl⟩
      · obtain ⟨s', hs, rfl⟩ := Option.map_eq_some_iff.1 hp
        refine ⟨rfl, ?_⟩
        unfold resume at hs
        split at hs
        · obtain ⟨q, -, rfl⟩ := Option.map_eq_some_iff.1 hs
          simp [hl]
        · cases hs
  refine ⟨by rw [← h2, key.1]; rfl, ?_⟩
  rw [← h1]
  split
  · exact key.2
  · rw [show ({ p.1 with epsArr := assigned (kindOf steps g) 0 p.1.epsArr } : State Θ).epsArr = assigned (kindOf steps g) 0 p.1.epsArr from rfl, assigned, List.length_modify]; exact key.2

/-- **C119 fails for `PMCABC` with arrays of thresholds.** A call with `m` steps is given one threshold for each of them, in an array of floats. Then a restart from its journal with two or more steps, but not `m`, does not
return, whatever is passed to it: it raises after its first step. -/
theorem C119_pmcabc_violated (m k : Nat) (g g' : Given) (hg : g.kind = .floats) (hl : g.values.length = m) (pct pct' : ℝ) (fuel fuel' : Nat) (full full' : Bool) (start start' : Nat → List W)
    (before before' : Option (Pop Θ)) (counter counter' : Nat) (s : State Θ) (f : Stored Θ) (after : List ℝ) (hm : 0 < m) (hk : 2 ≤ k) (hkm : k ≠ m)
    (h : sessionOf env m g pct fuel full start before counter none = some (s, f, after)) : sessionOf env k g' pct' fuel' full' start' before' counter' (some f) = none := by
  have hkind := journal_kind env m hm g pct fuel full start before counter s f after h
  rw [kindOf, if_pos hl, hg] at hkind
  have h1 := sessionOf_floats env m g (by rw [hg]; simp) pct fuel full start before counter none (by simp)
  rw [h] at h1
  obtain ⟨h2, h3, h4⟩ := thresholds_kept env m g.values pct fuel full start before counter s f.j h1.symm
  obtain ⟨arr, -, hi⟩ := inv_run env m g.values pct fuel start before counter s h4
  have hlen : s.epsArr.length = m := by rw [h2, List.length_map, hi.len]
  unfold sessionOf
  cases ho : openingOf k g' pct' full' before' counter' (some f) with
  | none => rfl
  | some p =>
    obtain ⟨s0, f0⟩ := p
    obtain ⟨rfl, hs0⟩ := opening_file k g' pct' full' before' counter' f f0 s0 ho
    simp only [Option.isSome_some, Option.map_eq_none_iff]
    obtain ⟨n, rfl⟩ : ∃ n, k = n + 1 := ⟨k - 1, by omega⟩
    rw [loopOf]
    cases hst : stepOf env (kindOf (n + 1) g') (n + 1) pct' fuel' 0 (start' 0) s0 with
    | none => rfl
    | some s1 =>
      simp only
      cases hw : writeOf full' true (kindOf (n + 1) g') (n + 1) 0 s1 f0 with
      | none => rfl
      | some f1 =>
        obtain ⟨-, -, h5⟩ := writeOf_array full' _ (n + 1) 0 s1 f0 f1 (by rw [hkind]; simp) _ (h3 hm) hw
        rw [stepOf_length env _ _ _ _ _ _ _ _ hst, hs0, hlen] at h5
        omega

/-- **C113 fails for restarts from journals with arrays.** If a restart returns, its journal lists as many thresholds as the journal before, although there are further populations. -/
theorem C113_arrays_violated (k : Nat) (g' : Given) (pct' : ℝ) (fuel' : Nat) (full' : Bool) (start' : Nat → List W) (before' : Option (Pop Θ)) (counter' : Nat) (f : Stored Θ) (hf : f.kind ≠ .list) (l : List (Option ℝ))
    (hl : f.j.epsArr = some l) (s' : State Θ) (f' : Stored Θ) (after' : List ℝ) (h : sessionOf env k g' pct' fuel' full' start' before' counter' (some f) = some (s', f', after')) :
    ∃ l', f'.j.epsArr = some l' ∧ l'.length = l.length := by
  have loop : ∀ (n t : Nat) (s s' : State Θ) (f f' : Stored Θ), loopOf env (kindOf k g') k pct' fuel' full' true start' n t s f = some (s', f') → f.kind ≠ .list → (∃ l', f.j.epsArr = some l' ∧ l'.length = l.length) →
      ∃ l', f'.j.epsArr = some l' ∧ l'.length = l.length := by
    intro n
    induction n with
    | zero =>
      intro t s s' f f' h _ hf
      simp only [loopOf, Option.some.injEq, Prod.mk.injEq] at h
      rw [← h.2]
      exact hf
    | succ n ih =>
      intro t s s' f f' h hk hf
      rw [loopOf] at h
      split at h
      · cases h
      · rename_i s1 _
        split at h
        · cases h
        · rename_i f1 hw
          obtain ⟨l1, g1, g2⟩ := hf
          obtain ⟨w1, ⟨l2, w2, w3⟩, -⟩ := writeOf_array full' _ k t s1 f f1 hk l1 g1 hw
          exact ih _ _ _ _ _ h (by rw [w1]; exact hk) ⟨l2, w2, w3.trans g2⟩
  unfold sessionOf at h
  cases ho : openingOf k g' pct' full' before' counter' (some f) with
  | none => simp [ho] at h
  | some p =>
    obtain ⟨s0, f0⟩ := p
    obtain ⟨rfl, -⟩ := opening_file k g' pct' full' before' counter' f f0 s0 ho
    simp only [ho, Option.isSome_some] at h
    obtain ⟨r, hr, hr'⟩ := Option.map_eq_some_iff.1 h
    simp only [Prod.mk.injEq] at hr'
    rw [← hr'.2.1]
    exact loop _ _ _ _ _ _ hr hf ⟨l, hl, rfl⟩

/-- C119, C113: a call with two steps writes a journal that cannot be restarted with three or four steps. -/
example : ∃ f : Stored ℝ, f.kind = .floats ∧ ∀ (g : Given) (pct : ℝ) (fuel : Nat) (full : Bool) (start : Nat → List ℝ) (before : Option (Pop ℝ)) (counter : Nat),
    sessionOf countdown 3 g pct fuel full start before counter (some f) = none ∧ sessionOf countdown 4 g pct fuel full start before counter (some f) = none := by
  obtain ⟨s, f, h, -⟩ := countdown_run .floats 3 1 1 1 3 1 (by norm_num) (by norm_num [store]) fun p => countdown_near 3 1 p (by norm_num)
  refine ⟨f, journal_kind countdown 2 (by norm_num) ⟨.floats, [4, 1]⟩ 50 3 true _ none 0 s f _ h, fun g pct fuel full start before counter => ⟨?_, ?_⟩⟩ <;>
    exact C119_pmcabc_violated countdown 2 _ ⟨.floats, [4, 1]⟩ g rfl rfl 50 pct 3 fuel true full _ start none before 0 counter s f _ (by norm_num) (by norm_num) (by norm_num) h

/-- C223: the second of the two calls of `C223_second_violated` has no lower thresholds. -/
example : ∃ s s' : State ℝ, s.hist.map Rec.eps = [4, 3] ∧ s'.hist.map Rec.eps = [4, 3] ∧ ∀ (i : Nat) r r', s.hist[i]? = some r → s'.hist[i]? = some r' → r.eps ≤ r'.eps := by
  obtain ⟨s, f, h, e, -⟩ := countdown_run .list 3 1 1 1 3 1 (by norm_num) (by norm_num [store]) fun p => countdown_near 3 1 p (by norm_num)
  obtain ⟨s', f', h', e', -⟩ := countdown_run .list 0 2 2 3 3 1 (by norm_num) (by norm_num [store]) fun p => countdown_near 3 2 p (by norm_num)
  exact ⟨s, s', e, e', fun i r r' => C223_again countdown 2 .list (by simp) [4, 1] rfl 50 3 3 true true _ _ none none 0 0 s s' f f' _ _ h h' i r r'⟩

/-- C223: a call in which the percentiles do not exceed the thresholds given. -/
example : ∃ s f after, sessionOf countdown 2 ⟨.list, [4, 3]⟩ 50 3 true (fun t => if t = 0 then [0, 0] else [2, 2]) none 0 none = some (s, f, after) ∧ after = [4, 3] := by
  obtain ⟨s, f, h, -⟩ := countdown_run .list 0 2 2 3 3 1 (by norm_num) (by norm_num [store]) fun p => countdown_near 3 2 p (by norm_num)
  exact ⟨s, f, _, h, rfl⟩

/-- C224: the run of `C224_integers_violated` with integers. -/
example : ∃ s : State ℝ, s.hist.length = 2 ∧ ∀ r r' q, s.hist[0]? = some r → s.hist[1]? = some r' → percentile r.distances 50 = some q → 1 < q → (⌊q⌋ : ℝ) ≠ q → r'.eps < q := by
  have hfl : ⌊(5 / 2 : ℝ)⌋ = 2 := by rw [Int.floor_eq_iff]; norm_num
  have hst : store .ints (max (5 / 2) 1) = 2 := by
    rw [max_eq_left (by norm_num), store, if_pos (by norm_num), hfl]; norm_num
  obtain ⟨s, f, h, -⟩ := countdown_run .ints (5 / 2) (5 / 2) (3 / 2) 1 2 2 (by norm_num) hst.symm fun p => by
    rw [countdown_far 2 (5 / 2) p (by norm_num) (by norm_num)]; norm_num
  have h' : sessionOf countdown 2 ⟨.ints, ([4, 1] : List ℤ).map fun x : ℤ => (x : ℝ)⟩ 50 3 true (fun t => if t = 0 then [5 / 2, 5 / 2] else [5 / 2, 5 / 2]) none 0 none = some (s, f, [4, 2]) := by
    rw [← h]; norm_num
  refine ⟨s, (C224_exact countdown 2 [4, 1] rfl (by simp) 50 3 true _ none 0 s f _ h').1, fun r r' q hr hr' hq h1 hn => ?_⟩
  exact C224_violated countdown 2 [4, 1] rfl (by simp) 50 3 true _ none 0 s f _ h' 0 r r' hr hr' q 1 hq rfl (by exact_mod_cast h1) hn

end Verif.Pmc
