import Verif.Pmc.Session
import Verif.Pmc.Run
/-
C111: restarts of `PMCABC` continue the run. C112: number of simulations. C113: thresholds in the journal. C114: files left by a process that dies.
-/
namespace Verif.Pmc

open Spec

variable {W Θ Y : Type} (env : Env W Θ Y)

/-! ### What is stored -/

/-- The populations of `hist` that a call with `steps` steps hands to the journal: all with full output, otherwise only that of the last step. -/
def handed (full : Bool) (steps : Nat) (hist : List (Rec Θ)) : List (Rec Θ) := if full then hist else hist.drop (steps - 1)

/-- What a journal of type `kind` holds after it is handed populations one by one. -/
def held (kind : Bool) (old new : List (Rec Θ)) : List (Rec Θ) := if kind then old ++ new else if new = [] then old else new.drop (new.length - 1)

structure Wrote (full restarted : Bool) (steps : Nat) (j0 : Journal Θ) (t : Nat) (s : State Θ) (j : Journal Θ) : Prop where
  len : s.hist.length = t
  kind : j.full = j0.full
  pops : j.pops = held j0.full j0.pops (handed full steps s.hist)
  sims : 0 < t → full = true ∨ t = steps → j.sims.getLast? = some s.counter
  fresh : restarted = false → 0 < t → j.epsArr = some s.epsArr
  added : restarted = true → ∀ l, j0.epsArr = some l → ∃ l', j.epsArr = some (l ++ l') ∧ l'.length = t * steps ∧ (0 < t → ∃ l'', l' = l'' ++ s.epsArr)
  arr : s.epsArr.length = steps
  used : ∀ i, i < t → s.epsArr[i]? = (s.hist[i]?).map fun r => some r.eps

theorem held_snoc (kind : Bool) (old new : List (Rec Θ)) (r : Rec Θ) :
    held kind old (new ++ [r]) = if kind then held kind old new ++ [r] else [r] := by
  unfold held
  split
  · simp
  · simp

theorem nextEps_length (steps t : Nat) (pct : ℝ) (ds : List ℝ) (arr arr' : List (Option ℝ)) (h : nextEps steps t pct ds arr = some arr') : arr'.length = arr.length := by
  unfold nextEps at h
  split at h
  · split at h
    · simp only [Option.some.injEq] at h; rw [← h]; simp
    · simp only [Option.some.injEq] at h; rw [← h]; simp
    · cases h
  · simp only [Option.some.injEq] at h; rw [← h]

theorem nextEps_other (steps t : Nat) (pct : ℝ) (ds : List ℝ) (arr arr' : List (Option ℝ)) (h : nextEps steps t pct ds arr = some arr') (i : Nat) (hi : i ≠ t + 1) :
    arr'[i]? = arr[i]? := by
  unfold nextEps at h
  split at h
  · split at h
    · simp only [Option.some.injEq] at h; rw [← h, List.getElem?_set_ne (by omega)]
    · simp only [Option.some.injEq] at h; rw [← h, List.getElem?_set_ne (by omega)]
    · cases h
  · simp only [Option.some.injEq] at h; rw [← h]

theorem wrote_step (full restarted : Bool) (steps : Nat) (pct : ℝ) (fuel t : Nat) (start : List W) (j0 j : Journal Θ) (s s' : State Θ)
    (hI : Wrote full restarted steps j0 t s j) (ht : t < steps) (h : pmcStep env steps pct fuel t start s = some s') :
    Wrote full restarted steps j0 (t + 1) s' (write full restarted steps t s' j) := by
  obtain ⟨eps, new, tries, r, r1, -, r3, r4, -, -, r7⟩ := pmcStep_stage env steps pct fuel t start s s' h
  have hlast : s'.hist.getLast? = some r := by rw [r4]; simp
  have harr : s'.epsArr.length = steps := by rw [nextEps_length _ _ _ _ _ _ r7, hI.arr]
  have hp : ∀ j1 : Journal Θ, (j1.addEps restarted s'.epsArr).pops = j1.pops ∧ (j1.addEps restarted s'.epsArr).full = j1.full ∧ (j1.addEps restarted s'.epsArr).sims = j1.sims := by
    intro j1; unfold Journal.addEps; split <;> exact ⟨rfl, rfl, rfl⟩
  have he : ∀ j1 : Journal Θ, j1.epsArr = j.epsArr → (restarted = false → 0 < t + 1 → (j1.addEps restarted s'.epsArr).epsArr = some s'.epsArr) ∧
      (restarted = true → ∀ l, j0.epsArr = some l → ∃ l', (j1.addEps restarted s'.epsArr).epsArr = some (l ++ l') ∧ l'.length = (t + 1) * steps ∧ (0 < t + 1 → ∃ l'', l' = l'' ++ s'.epsArr)) := by
    intro j1 hj1
    refine ⟨?_, ?_⟩
    · rintro rfl -; rfl
    · rintro rfl l hl
      obtain ⟨l', e1, e2, -⟩ := hI.added rfl l hl
      refine ⟨l' ++ s'.epsArr, ?_, by rw [List.length_append, e2, harr]; ring, fun _ => ⟨l', rfl⟩⟩
      unfold Journal.addEps
      rw [hj1, e1]
      simp
  have hu : ∀ i, i < t + 1 → s'.epsArr[i]? = (s'.hist[i]?).map fun r => some r.eps := by
    intro i hi
    rw [nextEps_other _ _ _ _ _ _ r7 i (by omega), r4]
    rcases Nat.lt_or_ge i t with hlt | hge
    · rw [hI.used i hlt, List.getElem?_append_left (by rw [hI.len]; exact hlt)]
    · have : i = t := by omega
      subst this
      rw [r1, List.getElem?_append_right (by rw [hI.len]), hI.len]
      have := r3.eps
      simp only at this
      simp [this]
  by_cases hf : full = true ∨ t + 1 = steps
  · have hw : write full restarted steps t s' j = (j.add r s'.counter).addEps restarted s'.epsArr := by
      rw [write, if_pos hf, hlast]
    obtain ⟨p1, p2, p3⟩ := hp (j.add r s'.counter)
    refine ⟨by rw [r4]; simp [hI.len], by rw [hw, p2]; exact hI.kind, ?_, ?_, by rw [hw]; exact (he (j.add r s'.counter) rfl).1, by rw [hw]; exact (he (j.add r s'.counter) rfl).2, harr, hu⟩
    · rw [hw, p1]
      have h1 : handed full steps s'.hist = handed full steps s.hist ++ [r] := by
        rw [r4]
        unfold handed
        split
        · rfl
        · rename_i hff
          have : t + 1 = steps := hf.resolve_left hff
          rw [List.drop_append_of_le_length (by rw [hI.len]; omega)]
      rw [h1, held_snoc, ← hI.pops]
      simp only [Journal.add, hI.kind]
    · intro _ _
      rw [hw, p3]
      simp [Journal.add]
  · have hw : write full restarted steps t s' j = j.addEps restarted s'.epsArr := by rw [write, if_neg hf]
    obtain ⟨p1, p2, p3⟩ := hp j
    rw [not_or] at hf
    refine ⟨by rw [r4]; simp [hI.len], by rw [hw, p2]; exact hI.kind, ?_, ?_, by rw [hw]; exact (he j rfl).1, by rw [hw]; exact (he j rfl).2, harr, hu⟩
    · rw [hw, p1, hI.pops]
      have h1 : handed full steps s'.hist = handed full steps s.hist := by
        unfold handed
        rw [if_neg hf.1, if_neg hf.1, List.drop_eq_nil_of_le (by rw [r4, List.length_append, hI.len]; simp only [List.length_singleton]; omega),
          List.drop_eq_nil_of_le (by rw [hI.len]; omega)]
      rw [h1]
    · intro _ h1
      rcases h1 with h1 | h1
      · exact absurd h1 hf.1
      · exact absurd h1 hf.2

theorem wrote_zero (full restarted : Bool) (steps : Nat) (j0 : Journal Θ) (s : State Θ) (hs : s.hist = []) (ha : s.epsArr.length = steps) : Wrote full restarted steps j0 0 s j0 := by
  refine ⟨by rw [hs]; rfl, rfl, ?_, by omega, by omega, fun _ l hl => ⟨[], by simp [hl], by simp, by omega⟩, ha, by omega⟩
  have : handed full steps s.hist = [] := by rw [hs]; unfold handed; split <;> simp
  rw [this]; unfold held; split <;> simp

/-- The thresholds of the steps, from what was written. -/
theorem wrote_thresholds (full restarted : Bool) (steps : Nat) (j0 j : Journal Θ) (s : State Θ) (x : List (ℝ × List (Particle Θ))) (h : Wrote full restarted steps j0 steps s j)
    (hx : List.Forall₂ Holds s.hist x) : s.epsArr = x.map fun x => some x.1 := by
  have hm : ∀ (l : List (Rec Θ)) (x : List (ℝ × List (Particle Θ))), List.Forall₂ Holds l x → l.map (fun r => some r.eps) = x.map fun x => some x.1 := by
    intro l x hx
    induction hx with
    | nil => rfl
    | cons h1 _ ih => rw [List.map_cons, List.map_cons, ih, h1.eps]
  rw [← hm _ _ hx]
  apply List.ext_getElem?
  intro i
  rw [List.getElem?_map]
  rcases Nat.lt_or_ge i steps with hlt | hge
  · exact h.used i hlt
  · rw [List.getElem?_eq_none (by rw [h.arr]; exact hge), List.getElem?_eq_none (by rw [h.len]; exact hge)]; rfl

/-- The loop of a call: its history and its journal. -/
theorem sessionLoop_spec (steps : Nat) (pct : ℝ) (fuel : Nat) (full restarted : Bool) (start : Nat → List W) (before : Option (Pop Θ)) (arr : List (Option ℝ)) (counter : Nat)
    (j0 : Journal Θ) (k t : Nat) (s s' : State Θ) (j j' : Journal Θ) (hk : t + k = steps) (h1 : Follows env steps pct start before arr counter t s)
    (h2 : Wrote full restarted steps j0 t s j) (h : sessionLoop env steps pct fuel full restarted start k t s j = some (s', j')) :
    Follows env steps pct start before arr counter steps s' ∧ Wrote full restarted steps j0 steps s' j' := by
  induction k generalizing t s j with
  | zero =>
    simp only [sessionLoop, Option.some.injEq, Prod.mk.injEq] at h
    obtain ⟨rfl, rfl⟩ := h
    have : t = steps := by omega
    rw [this] at h1 h2
    exact ⟨h1, h2⟩
  | succ k ih =>
    rw [sessionLoop] at h
    split at h
    · cases h
    · rename_i s1 hs1
      exact ih (t + 1) s1 _ (by omega) (follows_step env steps pct fuel start before arr counter t s s1 h1 (by omega) hs1)
        (wrote_step env full restarted steps pct fuel t (start t) j0 j s s1 h2 (by omega) hs1) h

/-- The same for the files that a call writes. -/
theorem files_spec (steps : Nat) (pct : ℝ) (fuel : Nat) (full restarted : Bool) (start : Nat → List W) (before : Option (Pop Θ)) (arr : List (Option ℝ)) (counter : Nat)
    (j0 : Journal Θ) (k t : Nat) (s : State Θ) (j j' : Journal Θ) (hk : t + k = steps) (h1 : Follows env steps pct start before arr counter t s)
    (h2 : Wrote full restarted steps j0 t s j) (h : some j' ∈ files env steps pct fuel full restarted start k t s j) :
    ∃ t' s', t < t' ∧ t' ≤ steps ∧ Follows env steps pct start before arr counter t' s' ∧ Wrote full restarted steps j0 t' s' j' := by
  induction k generalizing t s j with
  | zero => simp [files] at h
  | succ k ih =>
    rw [files] at h
    split at h
    · simp at h
    · rename_i s1 hs1
      have hf := follows_step env steps pct fuel start before arr counter t s s1 h1 (by omega) hs1
      have hw := wrote_step env full restarted steps pct fuel t (start t) j0 j s s1 h2 (by omega) hs1
      simp only [List.mem_cons, reduceCtorEq, Option.some.injEq, false_or] at h
      rcases h with rfl | h
      · exact ⟨t + 1, s1, by omega, by omega, hf, hw⟩
      · obtain ⟨t', s', e1, e2⟩ := ih (t + 1) s1 _ (by omega) hf hw h
        exact ⟨t', s', by omega, e2⟩

/-! ### Histories one after the other -/

theorem history_congr (pct : ℝ) (g g' : Nat → Option ℝ) (start start' : Nat → List W) (before : Option (Pop Θ)) (h : List (ℝ × List (Particle Θ))) (n : Nat)
    (hg : ∀ t, t < h.length → g t = g' t ∧ start t = start' t) (hh : History env pct g start before h n) : History env pct g' start' before h n := by
  induction hh with
  | first eps new tries h1 h2 =>
    obtain ⟨g1, g2⟩ := hg 0 (by simp)
    exact .first eps new tries (by rw [← g1]; exact h1) (by rw [← g2]; exact h2)
  | step h e last k eps new tries _ h2 h3 ih =>
    obtain ⟨g1, g2⟩ := hg (h.length + 1) (by simp)
    refine .step h e last k eps new tries (ih fun t ht => hg t ?_) (by rw [← g1]; exact h2) (by rw [← g2]; exact h3)
    rw [List.length_append]; exact Nat.lt_of_lt_of_le ht (Nat.le_add_right _ _)

theorem history_append (pct : ℝ) (g1 g2 g : Nat → Option ℝ) (start1 start2 start : Nat → List W) (before : Option (Pop Θ)) (a : List (ℝ × List (Particle Θ))) (e : ℝ)
    (last : List (Particle Θ)) (n1 : Nat) (h1 : History env pct g1 start1 before (a ++ [(e, last)]) n1) (h : List (ℝ × List (Particle Θ))) (n2 : Nat)
    (hg1 : ∀ t, t < a.length + 1 → g1 t = g t ∧ start1 t = start t) (hs2 : ∀ t, start2 t = start (a.length + 1 + t))
    (h0 : ∀ eps, g2 0 = some eps → Threshold pct (g (a.length + 1)) last eps) (hg2 : ∀ t, g2 (t + 1) = g (a.length + 1 + (t + 1)))
    (h2 : History env pct g2 start2 (some (asPop last)) h n2) : History env pct g start before (a ++ [(e, last)] ++ h) (n1 + n2) := by
  have h1' := history_congr env pct g1 g start1 start before _ n1 (by simpa using hg1) h1
  induction h2 with
  | first eps new tries e1 e2 => exact .step a e last n1 eps new tries h1' (h0 eps e1) (by rw [hs2 0] at e2; exact e2)
  | step b e' last' k eps new tries _ e2 e3 ih =>
    rw [show a ++ [(e, last)] ++ (b ++ [(e', last')] ++ [(eps, new)]) = (a ++ [(e, last)] ++ b) ++ [(e', last')] ++ [(eps, new)] by simp, ← Nat.add_assoc]
    rw [← List.append_assoc] at ih
    have hl : (a ++ [(e, last)] ++ b).length + 1 = a.length + 1 + (b.length + 1) := by simp; omega
    refine .step _ e' last' _ eps new tries ih ?_ ?_
    · rw [hl, ← hg2]; exact e2
    · rw [hl, ← hs2]; exact e3

theorem history_ne (pct : ℝ) (g : Nat → Option ℝ) (start : Nat → List W) (before : Option (Pop Θ)) (h : List (ℝ × List (Particle Θ))) (n : Nat)
    (hh : History env pct g start before h n) : ∃ a e last, h = a ++ [(e, last)] := by
  cases hh with
  | first eps new tries _ _ => exact ⟨[], eps, new, rfl⟩
  | step a e last k eps new tries _ _ _ => exact ⟨a ++ [(e, last)], eps, new, rfl⟩

/-! ### C111 -/

/-- A journal that belongs to the history `h`: its last population is that of the history. -/
def Ends (j : Journal Θ) (h : List (ℝ × List (Particle Θ))) : Prop := ∃ r x, j.pops.getLast? = some r ∧ h.getLast? = some x ∧ Holds r x

theorem forall₂_last (l : List (Rec Θ)) (h : List (ℝ × List (Particle Θ))) (hl : List.Forall₂ Holds l h) (hne : l ≠ []) :
    ∃ r x, l.getLast? = some r ∧ h.getLast? = some x ∧ Holds r x := by
  induction hl with
  | nil => exact absurd rfl hne
  | cons h1 h2 ih =>
    rename_i a b l1 l2
    cases h2 with
    | nil => exact ⟨a, b, rfl, rfl, h1⟩
    | cons h3 h4 =>
      obtain ⟨r, x, e1, e2, e3⟩ := ih (by simp)
      exact ⟨r, x, by rw [List.getLast?_cons_cons]; exact e1, by rw [List.getLast?_cons_cons]; exact e2, e3⟩

theorem held_last (kind full : Bool) (old hist : List (Rec Θ)) (hl : 0 < hist.length) :
    (held kind old (handed full hist.length hist)).getLast? = hist.getLast? := by
  obtain ⟨a, r, rfl⟩ : ∃ a r, hist = a ++ [r] := by
    rcases hist.eq_nil_or_concat with h | ⟨a, r, h⟩
    · rw [h] at hl; simp at hl
    · exact ⟨a, r, by simpa using h⟩
  have : handed full (a ++ [r]).length (a ++ [r]) = (if full then a else []) ++ [r] := by
    unfold handed; split <;> simp
  rw [this, held_snoc]
  split <;> simp

theorem initEps_length (epsInit : List ℝ) (steps : Nat) (arr : List (Option ℝ)) (h : initEps epsInit steps = some arr) : arr.length = steps := by
  unfold initEps at h
  split at h
  · simp only [Option.some.injEq] at h; rw [← h]; simpa
  · split at h
    · simp only [Option.some.injEq] at h; rw [← h]; simp
    · cases h

/-- **C111, first call.** A call without a journal file carries out a run, and the last population of its journal is that of the run; with full output the journal has all populations. -/
theorem C111_first (steps : Nat) (epsInit : List ℝ) (pct : ℝ) (fuel : Nat) (full : Bool) (start : Nat → List W) (before : Option (Pop Θ)) (counter : Nat) (s : State Θ)
    (j : Journal Θ) (hs : 0 < steps) (h : session env steps epsInit pct fuel full start before counter none = some (s, j)) :
    ∃ h n, History env pct (asked epsInit steps) start before h n ∧ h.length = steps ∧ Ends j h ∧ j.full = full ∧ (full = true → List.Forall₂ Holds j.pops h) ∧
      s.counter = counter + n := by
  unfold session opening at h
  split at h
  · cases h
  · rename_i s0 j0 ho
    split at ho
    · cases ho
    · rename_i arr harr _
      simp only [Option.some.injEq, Prod.mk.injEq] at ho
      obtain ⟨rfl, rfl⟩ := ho
      obtain ⟨h1, h2⟩ := sessionLoop_spec env steps pct fuel full false start before arr counter ⟨full, [], [], none⟩ steps 0 _ s _ j (by omega)
        ⟨fun _ _ => rfl, fun _ => rfl, by omega⟩ (wrote_zero full false steps _ _ rfl (initEps_length _ _ _ harr)) h
      obtain ⟨a, e, last, n, a1, a2, a3, a4, -⟩ := h1.some hs
      rw [(initEps_asked epsInit steps arr harr hs).1] at a2
      have hne : s.hist ≠ [] := by intro hn; have := h2.len; rw [hn] at this; simp at this; omega
      refine ⟨_, n, a2, by simp [a1], ?_, h2.kind, ?_, a4⟩
      · have := held_last full full [] s.hist (by rw [h2.len]; exact hs)
        unfold Ends
        rw [h2.pops, show (⟨full, [], [], none⟩ : Journal Θ).full = full from rfl, show (⟨full, [], [], none⟩ : Journal Θ).pops = [] from rfl]
        rw [h2.len] at this
        rw [this]
        exact forall₂_last _ _ a3 hne
      · intro hf
        rw [h2.pops, hf]
        simp only [held, handed, if_true, List.nil_append]
        exact a3
    · rename_i he; cases he

/-- **C111, restart.** If a call gets a journal whose last population is that of a run, then it carries that run on: its populations follow those of the history, with the thresholds asked for in the restart,
and the journal that it returns ends with the last population again, so that it can be restarted in turn. With full output from the beginning the journal has all populations. -/
theorem C111_restart (steps : Nat) (epsInit : List ℝ) (pct : ℝ) (fuel : Nat) (full : Bool) (start : Nat → List W) (g : Nat → Option ℝ) (before : Option (Pop Θ))
    (h : List (ℝ × List (Particle Θ))) (n : Nat) (j : Journal Θ) (hH : History env pct g start before h n) (hj : Ends j h)
    (before' : Option (Pop Θ)) (counter : Nat) (s' : State Θ) (j' : Journal Θ) (hs : 0 < steps)
    (hr : session env steps epsInit pct fuel full (fun t => start (h.length + t)) before' counter (some j) = some (s', j')) :
    ∃ h' n', History env pct (fun t => if t < h.length then g t else asked epsInit steps (t - h.length)) start before (h ++ h') (n + n') ∧ h'.length = steps ∧
      Ends j' (h ++ h') ∧ j'.full = j.full ∧ (full = true → j.full = true → List.Forall₂ Holds j.pops h → List.Forall₂ Holds j'.pops (h ++ h')) ∧ s'.counter = counter + n' ∧
      (∀ l, j.epsArr = some l → ∃ l', j'.epsArr = some (l ++ l' ++ h'.map fun x => some x.1) ∧ l'.length + steps = steps * steps) := by
  unfold session opening at hr
  split at hr
  · cases hr
  · rename_i s0 j0 ho
    split at ho
    · cases ho
    · rename_i he; cases he
    · rename_i arr j1 harr he
      cases he
      rw [if_neg (by omega)] at ho
      simp only [Option.map_eq_some_iff, Prod.mk.injEq] at ho
      obtain ⟨s1, hres, rfl, rfl⟩ := ho
      obtain ⟨r, x, hjl, hhl, hx⟩ := hj
      unfold resume at hres
      rw [hjl] at hres
      split at hres
      · rename_i r1 e0 he1 he0
        cases he1
        simp only [Option.map_eq_some_iff] at hres
        obtain ⟨q, hq, rfl⟩ := hres
        have hal := initEps_length _ _ _ harr
        obtain ⟨h1, h2⟩ := sessionLoop_spec env steps pct fuel full true (fun t => start (h.length + t)) (some ⟨r.params, r.weights⟩) (arr.set 0 (some (max q e0))) counter j steps 0 _ s' _ j'
          (by omega) ⟨fun _ _ => rfl, fun _ => rfl, by omega⟩ (wrote_zero full true steps _ _ rfl (by simp [hal])) hr
        obtain ⟨a, e, last, n', a1, a2, a3, a4, -⟩ := h1.some hs
        obtain ⟨b, eb, lastb, hb⟩ := history_ne env pct g start before h n hH
        have hxb : x = (eb, lastb) := by rw [hb] at hhl; simpa using hhl.symm
        subst hxb
        have hpop : (⟨r.params, r.weights⟩ : Pop Θ) = asPop lastb := by
          have e1 := hx.params; have e2 := hx.weights
          simp only at e1 e2
          rw [asPop, e1, e2]
        rw [hpop] at a2
        have hlen : h.length = b.length + 1 := by rw [hb]; simp
        have hg0 : asked epsInit steps 0 = some e0 := by
          rw [← (initEps_asked epsInit steps arr harr hs).1]
          simp only [he0, Option.join_some]
        have hcomp : History env pct (fun t => if t < h.length then g t else asked epsInit steps (t - h.length)) start before (h ++ (a ++ [(e, last)])) (n + n') := by
          have hH' := hH
          rw [hb] at hH' ⊢
          refine history_append env pct g _ _ start _ start before b eb lastb n hH' (a ++ [(e, last)]) n' ?_ ?_ ?_ ?_ a2
          · intro t ht
            refine ⟨?_, rfl⟩
            rw [if_pos (by rw [← hb, hlen]; exact ht)]
          · intro t; rw [hlen]
          · intro eps heps
            rw [if_neg (by simp)]
            have hz : b.length + 1 - (b ++ [(eb, lastb)]).length = 0 := by simp
            rw [hz, hg0]
            have hlt : 0 < arr.length := by rw [hal]; exact hs
            rw [List.getElem?_set_self hlt] at heps
            simp only [Option.join_some, Option.some.injEq] at heps
            refine ⟨q, ?_, ?_⟩
            · have := hx.distances; simp only at this; rw [← this]; exact hq
            · rw [← heps]; rfl
          · intro t
            rw [if_neg (by simp; omega)]
            have hz : b.length + 1 + (t + 1) - (b ++ [(eb, lastb)]).length = t + 1 := by simp
            rw [hz, ← (initEps_asked epsInit steps arr harr hs).1]
            rw [List.getElem?_set_ne (by omega)]
        have hne : s'.hist ≠ [] := by intro hn; have := h2.len; rw [hn] at this; simp at this; omega
        refine ⟨a ++ [(e, last)], n', hcomp, by simp [a1], ?_, h2.kind, ?_, a4, ?_⟩
        · have hl := held_last j.full full j.pops s'.hist (by rw [h2.len]; exact hs)
          rw [h2.len] at hl
          obtain ⟨r', x', f1, f2, f3⟩ := forall₂_last _ _ a3 hne
          refine ⟨r', x', by rw [h2.pops, hl]; exact f1, ?_, f3⟩
          rw [List.getLast?_append, f2]; rfl
        · intro hf hk hall
          rw [h2.pops, hk, hf]
          simp only [held, handed, if_true]
          exact List.rel_append hall a3
        · intro l hl
          obtain ⟨l', e1, e2, e3⟩ := h2.added rfl l hl
          obtain ⟨l'', rfl⟩ := e3 hs
          refine ⟨l'', by rw [e1, wrote_thresholds _ _ _ _ _ _ _ h2 a3, List.append_assoc], ?_⟩
          rw [List.length_append, h2.arr] at e2
          exact e2
      · cases hres

/-- Thresholds that are below the percentile anyway do not matter. -/
theorem history_forget (pct : ℝ) (g g' : Nat → Option ℝ) (start : Nat → List W) (before : Option (Pop Θ)) (h : List (ℝ × List (Particle Θ))) (n : Nat) (h0 : g' 0 = g 0)
    (hg : ∀ t, t + 1 < h.length → g' (t + 1) = g (t + 1) ∨ (g' (t + 1) = none ∧ ∃ e x q, g (t + 1) = some e ∧ h[t]? = some x ∧ percentile (x.2.map Particle.d) pct = some q ∧ e ≤ q))
    (hh : History env pct g start before h n) : History env pct g' start before h n := by
  induction hh with
  | first eps new tries h1 h2 => exact .first eps new tries (by rw [h0]; exact h1) h2
  | step h e last k eps new tries hp h2 h3 ih =>
    refine .step h e last k eps new tries (ih ?_) ?_ h3
    · intro t ht
      have := hg t (Nat.lt_of_lt_of_le ht (by rw [List.length_append (as := h ++ [(e, last)])]; exact Nat.le_add_right _ _))
      rwa [List.getElem?_append_left (by omega)] at this
    · rcases hg h.length (by simp) with h1 | ⟨h1, e', x, q, q1, q2, q3, q4⟩
      · rw [h1]; exact h2
      · obtain ⟨q', p1, p2⟩ := h2
        rw [List.getElem?_append_left (by simp), List.getElem?_append_right le_rfl] at q2
        simp only [Nat.sub_self, List.getElem?_cons_zero, Option.some.injEq] at q2
        subst q2
        rw [p1] at q3
        simp only [Option.some.injEq] at q3
        subst q3
        refine ⟨q', p1, ?_⟩
        rw [p2, h1, q1]
        exact max_eq_left q4

/-- **C111, together.** A call with one threshold, and a restart of its journal by another one whose threshold is not above the percentile of the last distances, carry out the run that one call with all the
steps carries out. -/
theorem C111_uninterrupted (m k : Nat) (e0 e1 pct : ℝ) (fuel fuel' : Nat) (full full' : Bool) (start : Nat → List W) (before before' : Option (Pop Θ)) (counter counter' : Nat)
    (s s' : State Θ) (j j' : Journal Θ) (hm : 0 < m) (hk : 0 < k) (h1 : session env m [e0] pct fuel full start before counter none = some (s, j))
    (h2 : session env k [e1] pct fuel' full' (fun t => start (m + t)) before' counter' (some j) = some (s', j'))
    (hle : ∀ r q, j.pops.getLast? = some r → percentile r.distances pct = some q → e1 ≤ q) :
    ∃ h n, History env pct (asked [e0] (m + k)) start before h n ∧ h.length = m + k ∧ Ends j' h ∧ (full = true → full' = true → List.Forall₂ Holds j'.pops h) := by
  obtain ⟨h, n, a1, a2, a3, a4, a5, -⟩ := C111_first env m [e0] pct fuel full start before counter s j hm h1
  rw [← a2] at h2
  obtain ⟨h', n', b1, b2, b3, -, b5, -⟩ := C111_restart env k [e1] pct fuel' full' start _ before h n j a1 a3 before' counter' s' j' hk h2
  have hlast : ∃ q, percentile ((h.getLast?.map fun x => x.2.map Particle.d).getD []) pct = some q ∧ e1 ≤ q := by
    obtain ⟨r, x, c1, c2, c3⟩ := a3
    have hd := c3.distances
    rw [c2]
    simp only [Option.map_some, Option.getD_some]
    rw [← hd]
    cases hq : percentile r.distances pct with
    | none =>
      exfalso
      unfold session opening at h2
      cases harr : initEps [e1] k with
      | none => rw [harr] at h2; simp at h2
      | some arr =>
        rw [harr] at h2
        simp only [if_neg (show ¬ k = 0 by omega)] at h2
        have : resume pct j ⟨arr, before', counter', []⟩ = none := by
          unfold resume
          rw [c1]
          split
          · rename_i hr _
            simp only [Option.some.injEq] at hr
            subst hr
            rw [hq]; rfl
          · rfl
        rw [this] at h2
        simp at h2
    | some q => exact ⟨q, rfl, hle r q c1 hq⟩
  obtain ⟨q, q1, q2⟩ := hlast
  obtain ⟨b, eb, lastb, hb⟩ := history_ne env pct _ start before h n a1
  have hlen : h.length = b.length + 1 := by rw [hb]; simp
  refine ⟨h ++ h', n + n', ?_, by simp [a2, b2], b3, fun f1 f2 => b5 f2 (by rw [a4, f1]) (a5 f1)⟩
  refine history_forget env pct _ _ start before _ _ ?_ ?_ b1
  · rw [if_pos (by omega)]
    simp [asked]
  · intro t ht
    have hnone : asked [e0] (m + k) (t + 1) = none := by
      unfold asked
      split
      · simp
      · rfl
    rw [hnone]
    rcases Nat.lt_trichotomy (t + 1) h.length with hlt | heq | hgt
    · left
      rw [if_pos hlt]
      unfold asked
      split
      · simp
      · rfl
    · right
      refine ⟨rfl, e1, (eb, lastb), q, ?_, ?_, ?_, q2⟩
      · rw [heq, if_neg (by omega)]; simp [asked]
      · have : t = b.length := by omega
        rw [this, hb]
        simp
      · rw [hb] at q1
        simpa using q1
    · left
      rw [if_neg (by omega)]
      unfold asked
      split
      · rw [List.getElem?_eq_none (by simp; omega)]
      · rfl

/-! ### C112 -/

/-- What the journal says about the number of simulations after a call. -/
theorem session_sims (steps : Nat) (epsInit : List ℝ) (pct : ℝ) (fuel : Nat) (full : Bool) (start : Nat → List W) (before : Option (Pop Θ)) (counter : Nat)
    (file : Option (Journal Θ)) (s : State Θ) (j : Journal Θ) (hs : 0 < steps) (h : session env steps epsInit pct fuel full start before counter file = some (s, j)) :
    j.sims.getLast? = some s.counter := by
  unfold session at h
  split at h
  · cases h
  · rename_i s0 j0 ho
    have h0 : ∃ arr before', s0 = ⟨arr, before', counter, []⟩ ∧ arr.length = steps := by
      unfold opening at ho
      split at ho
      · cases ho
      · rename_i _ _ arr harr
        simp only [Option.some.injEq, Prod.mk.injEq] at ho
        exact ⟨arr, before, ho.1.symm, initEps_length _ _ _ harr⟩
      · rename_i _ _ arr j1 harr
        rw [if_neg (by omega)] at ho
        simp only [Option.map_eq_some_iff, Prod.mk.injEq] at ho
        obtain ⟨s1, hres, rfl, -⟩ := ho
        unfold resume at hres
        split at hres
        · simp only [Option.map_eq_some_iff] at hres
          obtain ⟨q, -, rfl⟩ := hres
          exact ⟨_, _, rfl, by simp [initEps_length _ _ _ harr]⟩
        · cases hres
    obtain ⟨arr, before', rfl, hal⟩ := h0
    exact (sessionLoop_spec env steps pct fuel full file.isSome start before' arr counter j0 steps 0 _ s _ j (by omega)
        ⟨fun _ _ => rfl, fun _ => rfl, by omega⟩ (wrote_zero full _ steps _ _ rfl hal) h).2.sims hs (Or.inr rfl)

/-- **C112.** After a call without journal file of a new sampler, and after a restart by the same sampler, the last number of simulations in the journal is that of all simulations behind the
journal. -/
theorem C112_partial (m k : Nat) (eps1 eps2 : List ℝ) (pct : ℝ) (fuel fuel' : Nat) (full full' : Bool) (start : Nat → List W) (before' : Option (Pop Θ))
    (s s' : State Θ) (j j' : Journal Θ) (hm : 0 < m) (hk : 0 < k) (h1 : session env m eps1 pct fuel full start none 0 none = some (s, j))
    (h2 : session env k eps2 pct fuel' full' (fun t => start (m + t)) before' s.counter (some j) = some (s', j')) :
    ∃ h h' n n' g, History env pct (asked eps1 m) start none h n ∧ j.sims.getLast? = some n ∧ Ends j h ∧
      History env pct g start none (h ++ h') (n + n') ∧ Ends j' (h ++ h') ∧ j'.sims.getLast? = some (n + n') := by
  obtain ⟨h, n, a1, a2, a3, a4, a5, a6⟩ := C111_first env m eps1 pct fuel full start none 0 s j hm h1
  have e1 := session_sims env m eps1 pct fuel full start none 0 none s j hm h1
  have e2 := session_sims env k eps2 pct fuel' full' _ before' s.counter (some j) s' j' hk h2
  rw [← a2] at h2
  obtain ⟨h', n', b1, b2, b3, -, b5, b6, -⟩ := C111_restart env k eps2 pct fuel' full' start _ none h n j a1 a3 before' s.counter s' j' hk h2
  rw [Nat.zero_add] at a6
  exact ⟨h, h', n, n', _, a1, by rw [e1, a6], a3, b1, b3, by rw [e2, b6, a6]⟩

/-- **C112 fails** for a restart by a new sampler, which is what a journal file is for: the simulations before the restart are not counted. -/
theorem C112_violated (m k : Nat) (eps1 eps2 : List ℝ) (pct : ℝ) (fuel fuel' : Nat) (full full' : Bool) (start : Nat → List W)
    (s s' : State Θ) (j j' : Journal Θ) (hm : 0 < m) (hk : 0 < k) (h1 : session env m eps1 pct fuel full start none 0 none = some (s, j))
    (h2 : session env k eps2 pct fuel' full' (fun t => start (m + t)) none 0 (some j) = some (s', j')) (hs : 0 < s.counter) :
    ∃ h h' n n' g, History env pct (asked eps1 m) start none h n ∧ j.sims.getLast? = some n ∧
      History env pct g start none (h ++ h') (n + n') ∧ Ends j' (h ++ h') ∧ j'.sims.getLast? = some n' ∧ n' < n + n' := by
  obtain ⟨h, n, a1, a2, a3, a4, a5, a6⟩ := C111_first env m eps1 pct fuel full start none 0 s j hm h1
  have e1 := session_sims env m eps1 pct fuel full start none 0 none s j hm h1
  have e2 := session_sims env k eps2 pct fuel' full' _ none 0 (some j) s' j' hk h2
  rw [← a2] at h2
  obtain ⟨h', n', b1, b2, b3, -, b5, b6, -⟩ := C111_restart env k eps2 pct fuel' full' start _ none h n j a1 a3 none 0 s' j' hk h2
  rw [Nat.zero_add] at a6 b6
  exact ⟨h, h', n, n', _, a1, by rw [e1, a6], b1, b3, by rw [e2, b6], by omega⟩

/-! ### C113 -/

/-- **C113.** After a call without journal file, `configuration["epsilon_arr"]` has the thresholds of the run, one for each population. -/
theorem C113_partial (steps : Nat) (epsInit : List ℝ) (pct : ℝ) (fuel : Nat) (full : Bool) (start : Nat → List W) (before : Option (Pop Θ)) (counter : Nat) (s : State Θ)
    (j : Journal Θ) (hs : 0 < steps) (h : session env steps epsInit pct fuel full start before counter none = some (s, j)) :
    ∃ h n, History env pct (asked epsInit steps) start before h n ∧ Ends j h ∧ h.length = steps ∧ j.epsArr = some (h.map fun x => some x.1) := by
  unfold session opening at h
  split at h
  · cases h
  · rename_i s0 j0 ho
    split at ho
    · cases ho
    · rename_i arr harr _
      simp only [Option.some.injEq, Prod.mk.injEq] at ho
      obtain ⟨rfl, rfl⟩ := ho
      obtain ⟨h1, h2⟩ := sessionLoop_spec env steps pct fuel full false start before arr counter ⟨full, [], [], none⟩ steps 0 _ s _ j (by omega)
        ⟨fun _ _ => rfl, fun _ => rfl, by omega⟩ (wrote_zero full false steps _ _ rfl (initEps_length _ _ _ harr)) h
      obtain ⟨a, e, last, n, a1, a2, a3, a4, -⟩ := h1.some hs
      rw [(initEps_asked epsInit steps arr harr hs).1] at a2
      have hne : s.hist ≠ [] := by intro hn; have := h2.len; rw [hn] at this; simp at this; omega
      refine ⟨_, n, a2, ?_, by simp [a1], ?_⟩
      · have := held_last full full [] s.hist (by rw [h2.len]; exact hs)
        unfold Ends
        rw [h2.pops, show (⟨full, [], [], none⟩ : Journal Θ).full = full from rfl, show (⟨full, [], [], none⟩ : Journal Θ).pops = [] from rfl]
        rw [h2.len] at this
        rw [this]
        exact forall₂_last _ _ a3 hne
      · rw [h2.fresh rfl hs]
        rw [wrote_thresholds _ _ _ _ _ _ _ h2 a3]
    · rename_i he; cases he

/-- **C113**, restarts: `configuration["epsilon_arr"]` begins with the thresholds of the first call and ends with those of the restart; between them are `k * k - k` further entries, where `k` is the
number of steps of the restart. -/
theorem C113_exact (m k : Nat) (eps1 eps2 : List ℝ) (pct : ℝ) (fuel fuel' : Nat) (full full' : Bool) (start : Nat → List W) (before before' : Option (Pop Θ)) (counter counter' : Nat)
    (s s' : State Θ) (j j' : Journal Θ) (hm : 0 < m) (hk : 0 < k) (h1 : session env m eps1 pct fuel full start before counter none = some (s, j))
    (h2 : session env k eps2 pct fuel' full' (fun t => start (m + t)) before' counter' (some j) = some (s', j')) :
    ∃ h h' n l, History env pct (fun t => if t < m then asked eps1 m t else asked eps2 k (t - m)) start before (h ++ h') n ∧ h.length = m ∧ h'.length = k ∧ Ends j' (h ++ h') ∧
      j'.epsArr = some ((h.map fun x => some x.1) ++ l ++ h'.map fun x => some x.1) ∧ l.length + k = k * k := by
  obtain ⟨h, n, a1, a2, a3, a4⟩ := C113_partial env m eps1 pct fuel full start before counter s j hm h1
  subst a3
  obtain ⟨h', n', b1, b2, b3, -, -, -, b7⟩ := C111_restart env k eps2 pct fuel' full' start _ before h n j a1 a2 before' counter' s' j' hk h2
  obtain ⟨l, e1, e2⟩ := b7 _ a4
  exact ⟨h, h', n + n', l, b1, rfl, b2, b3, e1, e2⟩

/-- **C113** for a restart with one step: `configuration["epsilon_arr"]` has the thresholds of both calls, one for each population. -/
theorem C113_one_partial (m : Nat) (eps1 eps2 : List ℝ) (pct : ℝ) (fuel fuel' : Nat) (full full' : Bool) (start : Nat → List W) (before before' : Option (Pop Θ)) (counter counter' : Nat)
    (s s' : State Θ) (j j' : Journal Θ) (hm : 0 < m) (h1 : session env m eps1 pct fuel full start before counter none = some (s, j))
    (h2 : session env 1 eps2 pct fuel' full' (fun t => start (m + t)) before' counter' (some j) = some (s', j')) :
    ∃ h n, History env pct (fun t => if t < m then asked eps1 m t else asked eps2 1 (t - m)) start before h n ∧ h.length = m + 1 ∧ Ends j' h ∧ j'.epsArr = some (h.map fun x => some x.1) := by
  obtain ⟨h, h', n, l, c1, c2, c3, c4, c5, c6⟩ := C113_exact env m 1 eps1 eps2 pct fuel fuel' full full' start before before' counter counter' s s' j j' hm (by omega) h1 h2
  have : l = [] := List.length_eq_zero_iff.mp (by omega)
  subst this
  exact ⟨_, n, c1, by rw [List.length_append, c2, c3], c4, by rw [c5, List.append_nil, List.map_append]⟩

/-- **C113 fails** for restarts: every step of the restart appends all its thresholds, so that two or more steps leave more entries than there are populations. -/
theorem C113_violated (m k : Nat) (eps1 eps2 : List ℝ) (pct : ℝ) (fuel fuel' : Nat) (full full' : Bool) (start : Nat → List W) (before before' : Option (Pop Θ)) (counter counter' : Nat)
    (s s' : State Θ) (j j' : Journal Θ) (hm : 0 < m) (hk : 1 < k) (h1 : session env m eps1 pct fuel full start before counter none = some (s, j))
    (h2 : session env k eps2 pct fuel' full' (fun t => start (m + t)) before' counter' (some j) = some (s', j')) :
    ∃ l, j'.epsArr = some l ∧ l.length = m + k * k ∧ m + k < l.length := by
  obtain ⟨h, h', n, l, -, c2, c3, -, c5, c6⟩ := C113_exact env m k eps1 eps2 pct fuel fuel' full full' start before before' counter counter' s s' j j' hm (by omega) h1 h2
  have : k * 2 ≤ k * k := Nat.mul_le_mul_left k hk
  refine ⟨_, c5, ?_, ?_⟩ <;> simp only [List.length_append, List.length_map, c2, c3] <;> omega

/-! ### C114 -/

/-- **C114.** If the process dies in the course of a call with full output that writes its journal to a file, what is left is what was there before, or nothing that can be read, or the journal of the
steps that had been completed: all populations of a history, from which `C111_restart` carries on. -/
theorem C114_partial (steps : Nat) (epsInit : List ℝ) (pct : ℝ) (fuel : Nat) (start : Nat → List W) (before : Option (Pop Θ)) (counter : Nat) (found : Option (Journal Θ))
    (left : Option (Journal Θ)) (hs : 0 < steps) (h : left ∈ sessionFiles env steps epsInit pct fuel true start before counter none found) :
    left = found ∨ left = none ∨
    ∃ j h n, left = some j ∧ History env pct (asked epsInit steps) start before h n ∧ 0 < h.length ∧ h.length ≤ steps ∧ List.Forall₂ Holds j.pops h ∧ Ends j h := by
  unfold sessionFiles opening at h
  split at h
  · left; simpa using h
  · rename_i s0 j0 ho
    split at ho
    · cases ho
    · rename_i arr harr _
      simp only [Option.some.injEq, Prod.mk.injEq] at ho
      obtain ⟨rfl, rfl⟩ := ho
      rw [List.mem_cons] at h
      rcases h with h | h
      · exact Or.inl h
      · cases left with
        | none => exact Or.inr (Or.inl rfl)
        | some j =>
          right; right
          obtain ⟨t', s', t1, t2, h1, h2⟩ := files_spec env steps pct fuel true false start before arr counter ⟨true, [], [], none⟩ steps 0 _ _ j (by omega)
            ⟨fun _ _ => rfl, fun _ => rfl, by omega⟩ (wrote_zero true false steps _ _ rfl (initEps_length _ _ _ harr)) h
          obtain ⟨a, e, last, n, a1, a2, a3, -⟩ := h1.some t1
          rw [(initEps_asked epsInit steps arr harr hs).1] at a2
          have hp : j.pops = s'.hist := by rw [h2.pops]; simp [held, handed]
          have hne : s'.hist ≠ [] := by intro hn; have := h2.len; rw [hn] at this; simp at this; omega
          refine ⟨j, _, n, rfl, a2, by simp, by simp; omega, by rw [hp]; exact a3, ?_⟩
          unfold Ends
          rw [hp]
          exact forall₂_last _ _ a3 hne
    · rename_i he; cases he

/-- When the call returns, the file holds the journal that it returns. -/
theorem C114_end (steps : Nat) (epsInit : List ℝ) (pct : ℝ) (fuel : Nat) (full : Bool) (start : Nat → List W) (before : Option (Pop Θ)) (counter : Nat) (file found : Option (Journal Θ))
    (s : State Θ) (j : Journal Θ) (hs : 0 < steps) (h : session env steps epsInit pct fuel full start before counter file = some (s, j)) :
    (sessionFiles env steps epsInit pct fuel full start before counter file found).getLast? = some (some j) := by
  have key : ∀ k t (s s' : State Θ) (j j' : Journal Θ) (x : Option (Journal Θ)), 0 < k → sessionLoop env steps pct fuel full file.isSome start k t s j = some (s', j') →
      (x :: files env steps pct fuel full file.isSome start k t s j).getLast? = some (some j') := by
    intro k
    induction k with
    | zero => intro t s s' j j' x hk; omega
    | succ k ih =>
      intro t s s' j j' x _ hl
      rw [sessionLoop] at hl
      rw [files]
      split at hl
      · cases hl
      · rename_i s1 h1
        simp only [List.getLast?_cons_cons]
        rcases Nat.eq_zero_or_pos k with rfl | hk
        · simp only [sessionLoop, Option.some.injEq, Prod.mk.injEq] at hl
          simp [files, hl.2]
        · exact ih (t + 1) s1 s' _ j' _ hk hl
  unfold session at h
  unfold sessionFiles
  split at h
  · cases h
  · rename_i s0 j0 ho
    exact key steps 0 s0 s j0 j found hs h

/-- **C114 fails**: every step empties the file before it writes the journal again. A process that restarts from a file, writes to the same file and dies there loses the populations that the file
had. -/
theorem C114_torn_violated (steps : Nat) (epsInit : List ℝ) (pct : ℝ) (fuel : Nat) (full : Bool) (start : Nat → List W) (before : Option (Pop Θ)) (counter : Nat) (j : Journal Θ)
    (s s' : State Θ) (j' : Journal Θ) (hs : 0 < steps) (ho : opening steps epsInit pct full before counter (some j) = some (s, j'))
    (h1 : pmcStep env steps pct fuel 0 (start 0) s = some s') :
    ∃ l, sessionFiles env steps epsInit pct fuel full start before counter (some j) (some j) = some j :: none :: l := by
  unfold sessionFiles
  rw [ho]
  obtain ⟨k, rfl⟩ : ∃ k, steps = k + 1 := ⟨steps - 1, by omega⟩
  simp only [files, h1]
  exact ⟨_, rfl⟩

/-- **C114 fails** without full output: what is written before the last step has no population, and no call can start from it. -/
theorem C114_short_violated (steps : Nat) (epsInit : List ℝ) (pct : ℝ) (fuel : Nat) (start : Nat → List W) (before : Option (Pop Θ)) (counter : Nat) (arr : List (Option ℝ))
    (s : State Θ) (harr : initEps epsInit steps = some arr) (hs : 1 < steps) (h1 : pmcStep env steps pct fuel 0 (start 0) ⟨arr, before, counter, []⟩ = some s) :
    ∃ j l, sessionFiles env steps epsInit pct fuel false start before counter none none = none :: none :: some j :: l ∧ s.hist.length = 1 ∧ j.pops = [] ∧
      ∀ steps' epsInit' pct' fuel' full' (start' : Nat → List W) before' counter', 0 < steps' → session env steps' epsInit' pct' fuel' full' start' before' counter' (some j) = none := by
  have ho : opening steps epsInit pct false before counter none = some (⟨arr, before, counter, []⟩, ⟨false, [], [], none⟩) := by
    unfold opening; rw [harr]
  have hw := wrote_step env false false steps pct fuel 0 (start 0) ⟨false, [], [], none⟩ ⟨false, [], [], none⟩ _ s
    (wrote_zero false false steps _ ⟨arr, before, counter, []⟩ rfl (initEps_length _ _ _ harr)) (by omega) h1
  have hp : (write false false steps 0 s ⟨false, [], [], none⟩).pops = [] := by
    rw [hw.pops]
    have : handed false steps s.hist = [] := by
      unfold handed
      rw [if_neg (by simp), List.drop_eq_nil_of_le (by rw [hw.len]; omega)]
    rw [this]; simp [held]
  unfold sessionFiles
  rw [ho]
  obtain ⟨k, rfl⟩ : ∃ k, steps = k + 1 := ⟨steps - 1, by omega⟩
  simp only [files, h1, Option.isSome_none]
  refine ⟨_, _, rfl, by simpa using hw.len, hp, ?_⟩
  intro steps' epsInit' pct' fuel' full' start' before' counter' hs'
  unfold session opening
  cases initEps epsInit' steps' with
  | none => rfl
  | some arr' =>
    simp only [if_neg (show ¬ steps' = 0 by omega)]
    unfold resume
    rw [hp]
    rfl

/-! ### The hypotheses are met: calls and restarts in the simple setting -/

theorem easy_task (pop : Option (Pop Nat)) (eps : ℝ) (h : 0 ≤ eps) : ∃ θ, resampleTask easy eps pop 3 () = some (θ, 0, 1) := by
  cases pop with
  | none => exact ⟨1, by simp [resampleTask, resampleLoop, above, easy, not_lt.2 h]⟩
  | some p => exact ⟨2, easy_perturbed p eps h⟩

/-- Two particles. -/
def Sized (pop : Option (Pop Nat)) : Prop := ∀ p, pop = some p → p.weights.length = 2 ∧ p.params.length = 2

theorem easy_step (steps t : Nat) (s : State Nat) (e : ℝ) (he : s.epsArr[t]? = some (some e)) (h0 : 0 ≤ e) (hp : Sized s.pop) (ha : s.epsArr.length = steps) (ht : t < steps) :
    ∃ s' r, pmcStep easy steps 50 3 t [(), ()] s = some s' ∧ s'.hist = s.hist ++ [r] ∧ r.distances = [0, 0] ∧ r.params.length = 2 ∧ r.weights.length = 2 ∧ Sized s'.pop ∧
      s'.epsArr.length = steps ∧ s'.counter = s.counter + 2 ∧ (t + 1 < steps → ∃ e', s'.epsArr[t + 1]? = some (some e') ∧ 0 ≤ e') := by
  obtain ⟨θ, hθ⟩ := easy_task s.pop e h0
  have hall : (s.pop.all fun p => decide (p.weights.length = [(), ()].length ∧ p.params.length = [(), ()].length)) = true := by
    cases hs : s.pop with
    | none => rfl
    | some p => simpa using hp p hs
  have hq := percentile_zero 50 (by norm_num) (by norm_num)
  have hn : ∃ arr, nextEps steps t 50 [0, 0] s.epsArr = some arr ∧ arr.length = steps ∧ (t + 1 < steps → ∃ e', arr[t + 1]? = some (some e') ∧ 0 ≤ e') := by
    unfold nextEps
    split
    · rename_i hlt
      rw [hq, List.getElem?_eq_getElem (by omega)]
      cases s.epsArr[t + 1] with
      | none => exact ⟨_, rfl, by simp [ha], fun _ => ⟨0, by rw [List.getElem?_set_self (by omega)], le_rfl⟩⟩
      | some g => exact ⟨_, rfl, by simp [ha], fun _ => ⟨max 0 g, by rw [List.getElem?_set_self (by omega)], le_max_left _ _⟩⟩
    · exact ⟨_, rfl, ha, fun h => absurd h (by assumption)⟩
  obtain ⟨arr, n1, n2, n3⟩ := hn
  have : pmcStep easy steps 50 3 t [(), ()] s = some ⟨arr, some ⟨[θ, θ], normalise ([θ, θ].map (rawWeight easy 2 s.pop))⟩, s.counter + [1, 1].sum,
      s.hist ++ [⟨e, [θ, θ], [0, 0], normalise ([θ, θ].map (rawWeight easy 2 s.pop))⟩]⟩ := by
    unfold pmcStep
    rw [he]
    simp only
    rw [if_pos hall]
    simp only [List.map_cons, List.map_nil, hθ, collect, n1]
    rfl
  refine ⟨_, _, this, rfl, rfl, rfl, by simp [normalise], ?_, n2, rfl, n3⟩
  intro p hpp
  simp only [Option.some.injEq] at hpp
  subst hpp
  exact ⟨by simp [normalise], rfl⟩

theorem easy_loop (full restarted : Bool) (steps k t : Nat) (s : State Nat) (j : Journal Nat) (e : ℝ) (he : s.epsArr[t]? = some (some e)) (h0 : 0 ≤ e) (hp : Sized s.pop)
    (ha : s.epsArr.length = steps) (hk : t + k = steps) (ht : 0 < k) :
    ∃ s' j' r, sessionLoop easy steps 50 3 full restarted (fun _ => [(), ()]) k t s j = some (s', j') ∧ s'.hist.getLast? = some r ∧ r.distances = [0, 0] ∧ r.params.length = 2 ∧
      r.weights.length = 2 ∧ s'.counter = s.counter + 2 * k := by
  induction k generalizing t s j e with
  | zero => omega
  | succ k ih =>
    obtain ⟨s1, r, a1, a2, a3, a4, a5, a6, a7, a8, a9⟩ := easy_step steps t s e he h0 hp ha (by omega)
    rw [sessionLoop, a1]
    simp only
    rcases Nat.eq_zero_or_pos k with rfl | hk0
    · exact ⟨s1, _, r, rfl, by rw [a2]; simp, a3, a4, a5, by rw [a8]⟩
    · obtain ⟨e', e1, e2⟩ := a9 (by omega)
      obtain ⟨s', j', r', b1, b2, b3, b4, b5, b6⟩ := ih (t + 1) s1 _ e' e1 e2 a6 a7 (by omega) hk0
      exact ⟨s', j', r', b1, b2, b3, b4, b5, by rw [b6, a8]; omega⟩

theorem easy_first (full : Bool) (m : Nat) (hm : 0 < m) : ∃ s j r, session easy m [1] 50 3 full (fun _ => [(), ()]) none 0 none = some (s, j) ∧ j.pops.getLast? = some r ∧
    r.distances = [0, 0] ∧ r.params.length = 2 ∧ r.weights.length = 2 ∧ s.counter = 2 * m := by
  have hi : ∃ arr, initEps [1] m = some arr ∧ arr[0]? = some (some 1) := by
    unfold initEps
    split
    · exact ⟨_, rfl, rfl⟩
    · obtain ⟨n, rfl⟩ : ∃ n, m = n + 1 := ⟨m - 1, by omega⟩
      exact ⟨_, rfl, rfl⟩
  obtain ⟨arr, i1, i2⟩ := hi
  have ha := initEps_length _ _ _ i1
  obtain ⟨s', j', r, b1, b2, b3, b4, b5, b6⟩ := easy_loop full false m m 0 ⟨arr, none, 0, []⟩ ⟨full, [], [], none⟩ 1 i2 (by norm_num) (by intro p hp; cases hp) ha (by omega) hm
  have hs : session easy m [1] 50 3 full (fun _ => [(), ()]) none 0 none = some (s', j') := by
    unfold session opening; rw [i1]; exact b1
  refine ⟨s', j', r, hs, ?_, b3, b4, b5, by rw [b6]; simp⟩
  have h2 := (sessionLoop_spec easy m 50 3 full false (fun _ => [(), ()]) none arr 0 ⟨full, [], [], none⟩ m 0 _ s' _ j' (by omega)
    ⟨fun _ _ => rfl, fun _ => rfl, by omega⟩ (wrote_zero full false m _ _ rfl ha) b1).2
  have hl := held_last full full [] s'.hist (by rw [h2.len]; exact hm)
  rw [h2.len] at hl
  rw [h2.pops, ← b2, ← hl]

/-- The hypotheses of C111 to C113 are met: a call with two steps and a restart with two more, whose threshold 0 is the percentile of the last distances. -/
theorem easy_restart : ∃ s j s' j', session easy 2 [1] 50 3 true (fun _ => [(), ()]) none 0 none = some (s, j) ∧ 0 < s.counter ∧
    session easy 2 [0] 50 3 true (fun _ => [(), ()]) none 0 (some j) = some (s', j') ∧
    ∀ r q, j.pops.getLast? = some r → percentile r.distances 50 = some q → (0 : ℝ) ≤ q := by
  obtain ⟨s, j, r, a1, a2, a3, a4, a5, a6⟩ := easy_first true 2 (by norm_num)
  have hq := percentile_zero 50 (by norm_num) (by norm_num)
  have hi : initEps [0] 2 = some [some 0, none] := by simp [initEps]
  have ho : opening 2 [0] 50 true none 0 (some j) = some (⟨[some (max 0 0), none], some ⟨r.params, r.weights⟩, 0, []⟩, j) := by
    unfold opening resume
    rw [hi]
    simp [a2, a3, hq]
  obtain ⟨s', j', r', b1, -⟩ := easy_loop true true 2 2 0 ⟨[some (max 0 0), none], some ⟨r.params, r.weights⟩, 0, []⟩ j (max 0 0) rfl (by simp)
    (by intro p hp; simp only [Option.some.injEq] at hp; subst hp; exact ⟨a5, a4⟩) rfl rfl (by norm_num)
  refine ⟨s, j, s', j', a1, by rw [a6]; norm_num, ?_, ?_⟩
  · unfold session; rw [ho]; exact b1
  · intro r1 q1 h1 h2
    rw [a2] at h1
    simp only [Option.some.injEq] at h1
    subst h1
    rw [a3, hq] at h2
    simp only [Option.some.injEq] at h2
    rw [← h2]

/-- The hypotheses of the theorems about files are met. -/
example : ∃ s j s0 s1, session easy 2 [1] 50 3 true (fun _ => [(), ()]) none 0 none = some (s, j) ∧ opening 2 [0] 50 true none 0 (some j) = some (s0, j) ∧
    pmcStep easy 2 50 3 0 [(), ()] s0 = some s1 := by
  obtain ⟨s, j, r, a1, a2, a3, a4, a5, a6⟩ := easy_first true 2 (by norm_num)
  have hq := percentile_zero 50 (by norm_num) (by norm_num)
  have hi : initEps [0] 2 = some [some 0, none] := by simp [initEps]
  have ho : opening 2 [0] 50 true none 0 (some j) = some (⟨[some (max 0 0), none], some ⟨r.params, r.weights⟩, 0, []⟩, j) := by
    unfold opening resume
    rw [hi]
    simp [a2, a3, hq]
  obtain ⟨s1, -, b1, -⟩ := easy_step 2 0 ⟨[some (max 0 0), none], some ⟨r.params, r.weights⟩, 0, []⟩ (max 0 0) rfl (by simp)
    (by intro p hp; simp only [Option.some.injEq] at hp; subst hp; exact ⟨a5, a4⟩) rfl (by norm_num)
  exact ⟨s, j, _, s1, a1, ho, b1⟩

end Verif.Pmc
