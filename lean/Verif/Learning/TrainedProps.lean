import Verif.Learning.Trained
import Verif.Embedding.Examples

/-!
# C163: learned statistics give the network what it was trained on
-/

namespace Verif.Learning

open Verif.Distance (Stats Row)
open Verif.Statistics
open Verif.Embedding (Scaler Net Neural Class discard)

/-! ## Specification -/

/-- The output of the network (without a scaler) for one row of input. -/
def output (net : Net) (call : Nat) (width : Nat) (row : Row) : Option Stats :=
  (⟨net.cls, net.state, net.mode, none⟩ : Net).apply call ⟨width, [row]⟩

/-- Row `i` of the arrays belongs to the data set `x`: it has the statistics `chain` of `x`. -/
def Belongs (chain : List Step) (p : Pairs) (i : Nat) (x : Row) : Prop :=
  ∃ row, p.stats.rows[i]? = some row ∧ statistics chain [x] = some ⟨p.stats.width, [row]⟩

/-! ## Scalers work row by row -/

/-- A scaler that transforms row by row, keeping the width. -/
def RowWise (f : Scaler) : Prop := ∀ (w : Nat) (rows : List Row) (t : Stats), f ⟨w, rows⟩ = some t →
  t.width = w ∧ t.rows.length = rows.length ∧ ∀ (i : Nat) (r : Row), rows[i]? = some r → ∃ r', t.rows[i]? = some r' ∧ f ⟨w, [r]⟩ = some ⟨w, [r']⟩

theorem minMax_rowWise {a : Stats} {f : Scaler} (h : minMax a = some f) : RowWise f := by
  unfold minMax at h
  split at h
  · cases h
  · split_ifs at h
    cases h
    intro w rows t ht
    simp only at ht
    split_ifs at ht with hw
    cases ht
    refine ⟨rfl, by simp, ?_⟩
    intro i r hi
    refine ⟨_, by rw [List.getElem?_map, hi]; rfl, ?_⟩
    simp only
    rw [if_neg hw]
    rfl

theorem collect_get {A : Type} (l : List (Option A)) (t : List A) (h : collect l = some t) (i : Nat) (a : Option A) (hi : l[i]? = some a) : ∃ x, a = some x ∧ t[i]? = some x := by
  rw [collect_eq_some] at h
  subst h
  rw [List.getElem?_map] at hi
  obtain ⟨x, hx, rfl⟩ := Option.map_eq_some_iff.1 hi
  exact ⟨x, rfl, hx⟩

theorem collect_rowWise (g : Row → Option Row) : RowWise fun s => (collect (s.rows.map g)).map fun rows => ⟨s.width, rows⟩ := by
  intro w rows t ht
  obtain ⟨l, hl, rfl⟩ := Option.map_eq_some_iff.1 ht
  refine ⟨rfl, ?_, ?_⟩
  · have := (collect_eq_some _ _).1 hl
    simpa using (congrArg List.length this).symm
  · intro i r hi
    obtain ⟨x, hx, hx'⟩ := collect_get _ _ hl i (g r) (by simp [hi])
    exact ⟨x, hx', by simp [collect, hx]⟩

theorem bounded_rowWise {f32 : ℝ → ℝ} {bs : List Transform.Bound} {rescale : Bool} {a : Stats} {f : Scaler} (h : boundedScaler f32 bs rescale a = some f) : RowWise f := by
  unfold boundedScaler at h
  split at h
  · cases h
  · simp only at h
    split_ifs at h
    · split at h
      · cases h
      · cases h; exact collect_rowWise _
    · cases h; exact collect_rowWise _

/-- A scaler, if there is one, applied to an array. -/
def applied (sc : Option Scaler) (s : Stats) : Option Stats := match sc with
  | none => some s
  | some f => f s

/-- The rows of `t` are the scaled rows of `s`. -/
def Scaled (sc : Option Scaler) (s t : Stats) : Prop :=
  t.width = s.width ∧ t.rows.length = s.rows.length ∧ ∀ (i : Nat) (r : Row), s.rows[i]? = some r → ∃ r', t.rows[i]? = some r' ∧ applied sc ⟨s.width, [r]⟩ = some ⟨s.width, [r']⟩

theorem scaled_none (s : Stats) : Scaled none s s := ⟨rfl, rfl, fun _ r h => ⟨r, h, rfl⟩⟩

theorem scaleBoth_spec {fit : Option (Stats → Option Scaler)} (hfit : ∀ g, fit = some g → ∀ a f, g a = some f → RowWise f) {train : Stats} {val : Option Stats} {sc : Option Scaler}
    {t : Stats} {tv : Option Stats} (h : scaleBoth fit train val = some (sc, t, tv)) :
    Scaled sc train t ∧ (val = none → tv = none) ∧ (∀ v, val = some v → ∃ v', tv = some v' ∧ Scaled sc v v') ∧
    (fit = none → sc = none) ∧ (∀ g, fit = some g → ∃ f, sc = some f ∧ g train = some f ∧ f train = some t) := by
  unfold scaleBoth at h
  cases fit with
  | none =>
    cases h
    exact ⟨scaled_none _, id, fun v hv => ⟨v, hv, scaled_none v⟩, fun _ => rfl, by simp⟩
  | some g =>
    simp only at h
    cases hg : g train with
    | none => rw [hg] at h; cases h
    | some f =>
      rw [hg] at h
      simp only at h
      have rw_ := hfit g rfl train f hg
      cases ht : f train with
      | none => rw [ht] at h; cases h
      | some t' =>
        rw [ht] at h
        simp only at h
        have st : Scaled (some f) train t' := rw_ train.width train.rows t' ht
        cases val with
        | none =>
          cases h
          refine ⟨st, fun _ => rfl, by simp, by simp, ?_⟩
          intro g' hg'
          cases hg'
          exact ⟨f, rfl, hg, ht⟩
        | some v =>
          obtain ⟨v', hv, e⟩ := Option.map_eq_some_iff.1 h
          cases e
          refine ⟨st, by simp, ?_, by simp, ?_⟩
          · intro u hu
            cases hu
            exact ⟨v', rfl, rw_ v.width v.rows v' hv⟩
          · intro g' hg'
            cases hg'
            exact ⟨f, rfl, hg, ht⟩

theorem rowWise_fit (scaleSamples : Bool) : ∀ g, (if scaleSamples then some minMax else none) = some g → ∀ a f, g a = some f → RowWise f := by
  intro g hg a f h
  split_ifs at hg
  cases hg
  exact minMax_rowWise h

/-- What `prepare` does to the two sets. -/
theorem prepare_spec {fit fitParams : Option (Stats → Option Scaler)} (hfit : ∀ g, fit = some g → ∀ a f, g a = some f → RowWise f)
    (hpar : ∀ g, fitParams = some g → ∀ a f, g a = some f → RowWise f) {sets : Sets} {p : Pairs} (hp : sets.train = some p) {sc : Option Scaler} {job : Job}
    (h : prepare fit fitParams sets = some (sc, job)) :
    ∃ sp, Scaled sc p.stats job.sims ∧ Scaled sp (table p.params) job.target ∧ (fitParams = none → sp = none) ∧
    (∀ g, fit = some g → ∃ f, sc = some f ∧ g p.stats = some f ∧ f p.stats = some job.sims) ∧
    (validation sets = none → job.val = none) ∧
    ∀ q, validation sets = some q → ∃ sv tv, job.val = some (sv, tv) ∧ Scaled sc q.stats sv ∧ Scaled sp (table q.params) tv := by
  unfold prepare at h
  rw [hp] at h
  simp only at h
  cases h1 : scaleBoth fit p.stats ((validation sets).map (·.stats)) with
  | none => rw [h1] at h; cases h
  | some r =>
    obtain ⟨sc', s, sv⟩ := r
    rw [h1] at h
    simp only at h
    cases h2 : scaleBoth fitParams (table p.params) ((validation sets).map fun q => table q.params) with
    | none => rw [h2] at h; cases h
    | some r =>
      obtain ⟨sp, t, tv⟩ := r
      rw [h2] at h
      simp only at h
      cases h
      obtain ⟨a1, a2, a3, -, a5⟩ := scaleBoth_spec hfit h1
      obtain ⟨b1, b2, b3, b4, -⟩ := scaleBoth_spec hpar h2
      refine ⟨sp, a1, b1, b4, a5, ?_, ?_⟩
      · intro hv
        rw [a2 (by rw [hv]; rfl)]
      · intro q hq
        obtain ⟨v', e1, c1⟩ := a3 q.stats (by rw [hq]; rfl)
        obtain ⟨w', e2, c2⟩ := b3 (table q.params) (by rw [hq]; rfl)
        subst e1 e2
        exact ⟨v', w', rfl, c1, c2⟩

/-! ## Statistics of a data set of the training set -/

theorem neural_eq (net : Net) (sc : Option Scaler) (sd : Option (List ℝ)) (chain : List Step) (p : Pairs) (t : Stats) (ht : Scaled sc p.stats t) (i : Nat) (x : Row) (hx : Belongs chain p i x) :
    ∃ r, t.rows[i]? = some r ∧ ∀ call, (⟨⟨net.cls, net.state, net.mode, sc⟩, 1, false, sd, chain⟩ : Neural).statistics call [x] = (output net call t.width r).bind (rescale sd) := by
  obtain ⟨row, h1, h2⟩ := hx
  obtain ⟨hw, -, h3⟩ := ht
  obtain ⟨r, h4, h5⟩ := h3 i row h1
  refine ⟨r, h4, ?_⟩
  intro call
  have e : (⟨net.cls, net.state, net.mode, sc⟩ : Net).apply call ⟨p.stats.width, [row]⟩ = output net call t.width r := by
    unfold output Net.apply
    change (applied sc ⟨p.stats.width, [row]⟩).bind _ = _
    rw [h5, hw]
  unfold Neural.statistics
  rw [h2, Option.bind_some]
  simp only [e, Embedding.Examples.expand_plain]

/-- The statistics of the data sets `data i`, `i < m`, that the object `e` returns are what the network makes of row `i` of the array `sims`. -/
def Sees (e : Neural) (sims : Stats) (m : Nat) (data : Nat → Row) (out : Nat → Nat → Row → Option Stats) : Prop :=
  ∀ i < m, ∃ r, sims.rows[i]? = some r ∧ ∀ call, e.statistics call [data i] = out call sims.width r

theorem Regular.one {draw : Nat → Draw} {d : Nat} (hr : Regular draw 1 d) (i : Nat) : ∃ x, (draw i).sims = [x] ∧ x.length = d := by
  obtain ⟨a, b⟩ := hr i
  obtain ⟨x, hx⟩ := List.length_eq_one_iff.1 a
  exact ⟨x, hx, b x (by simp [hx])⟩

theorem Aligned.belongs {chain : List Step} {draw : Nat → Draw} {d : Nat} (hr : Regular draw 1 d) {start m : Nat} {s : Pairs} (hs : Aligned chain draw 1 start m s) (i : Nat) (hi : i < m) :
    Belongs chain s i (draw (start + i)).sims.flatten := by
  obtain ⟨x, hx, -⟩ := hr.one (start + i)
  obtain ⟨-, row, h2, h3⟩ := hs.2.2 i 0 hi (by simp [hx])
  refine ⟨row, by simpa using h2, ?_⟩
  simp only [hx, List.getElem_cons_zero] at h3
  simpa [hx] using h3

theorem Aligned.params {chain : List Step} {draw : Nat → Draw} {d : Nat} (hr : Regular draw 1 d) {start m : Nat} {s : Pairs} (hs : Aligned chain draw 1 start m s) :
    s.params = (List.range m).map fun i => (draw (start + i)).param := by
  apply List.ext_getElem?
  intro i
  by_cases hi : i < m
  · obtain ⟨x, hx, -⟩ := hr.one (start + i)
    have := (hs.2.2 i 0 hi (by simp [hx])).1
    simp only [Nat.mul_one, Nat.add_zero] at this
    rw [this]
    simp [hi]
  · rw [List.getElem?_eq_none (by have := hs.1; omega), List.getElem?_eq_none (by simp; omega)]

/-- **C163, networks trained by regression or distances, partial.** The data are generated with one data set per parameter. The network is trained on one row for each of the `n` draws, with the
parameters of that draw as its target. The statistics that are returned afterwards give for the data set of draw `i` exactly the output of the trained network at the row it was trained on for draw
`i`. The same holds for the rows and draws of the validation set. With scaling every input of the training set lies in `[0, 1]`. -/
theorem C163_network_partial (scaleSamples : Bool) (routine : Job → Net) (chain : List Step) (n nVal d : Nat) (hn : n ≠ 0) (draw : Nat → Draw) (hr : Regular draw 1 d) (sets : Sets)
    (hl : learn chain n nVal 1 none none draw = some sets) (job : Job) (e : Neural) (h : learnNN scaleSamples routine chain sets = some (job, e)) :
    Sees e job.sims n (fun i => (draw i).sims.flatten) (output (routine job)) ∧ job.sims.rows.length = n ∧ job.target.rows = (List.range n).map (fun i => (draw i).param) ∧
    (nVal = 0 → job.val = none) ∧
    (nVal ≠ 0 → ∃ sv tv, job.val = some (sv, tv) ∧ Sees e sv nVal (fun i => (draw (n + i)).sims.flatten) (output (routine job)) ∧ sv.rows.length = nVal ∧
      tv.rows = (List.range nVal).map (fun i => (draw (n + i)).param)) ∧
    (scaleSamples = true → ∀ r ∈ job.sims.rows, ∀ v ∈ r, 0 ≤ v ∧ v ≤ 1) := by
  obtain ⟨c1, c2⟩ := C65_partial chain n nVal 1 d none none draw (.inl rfl) hr sets hl
  obtain ⟨p, hp, ap⟩ := c1 rfl (by simp; omega)
  obtain ⟨q, hq, aq⟩ := c2 rfl (by simp; omega)
  simp only [if_true] at aq
  have one := Regular.one hr
  have belongs : ∀ (start m : Nat) (s : Pairs), Aligned chain draw 1 start m s → ∀ i < m, Belongs chain s i (draw (start + i)).sims.flatten := fun _ _ _ => Aligned.belongs hr
  have params : ∀ (start m : Nat) (s : Pairs), Aligned chain draw 1 start m s → s.params = (List.range m).map fun i => (draw (start + i)).param := fun _ _ _ => Aligned.params hr
  obtain ⟨⟨sc, job'⟩, hpre, he⟩ := Option.map_eq_some_iff.1 h
  cases he
  simp only at *
  obtain ⟨sp, s1, s2, s3, s4, s5, s6⟩ := prepare_spec (rowWise_fit scaleSamples) (by simp) hp hpre
  rw [s3 rfl] at s2 s6
  have tab : ∀ {s t : Stats}, Scaled none s t → t.rows = s.rows := by
    intro s t hst
    obtain ⟨-, b, c⟩ := hst
    apply List.ext_getElem?
    intro i
    by_cases hi : i < s.rows.length
    · obtain ⟨r', h1, h2⟩ := c i s.rows[i] (List.getElem?_eq_getElem hi)
      rw [h1, List.getElem?_eq_getElem hi]
      injection h2 with h2
      injection h2 with _ h2
      injection h2 with h2
      rw [h2]
    · rw [List.getElem?_eq_none (by omega), List.getElem?_eq_none (by omega)]
  refine ⟨?_, ?_, ?_, ?_, ?_, ?_⟩
  · intro i hi
    have hb := belongs 0 n p ap i hi
    rw [Nat.zero_add] at hb
    obtain ⟨r, h1, h2⟩ := neural_eq (routine job') sc none chain p job'.sims s1 i _ hb
    refine ⟨r, h1, fun call => ?_⟩
    rw [h2]
    cases output (routine job') call job'.sims.width r <;> rfl
  · rw [s1.2.1, ap.2.1, Nat.mul_one]
  · rw [tab s2]
    simpa [table] using params 0 n p ap
  · intro h0
    apply s5
    unfold validation
    rw [hq]
    have := aq.1
    simp [h0] at this
    simp [this]
  · intro h0
    have hv : validation sets = some q := by
      unfold validation
      rw [hq]
      have := aq.1
      simp only
      rw [if_pos (by omega)]
    obtain ⟨sv, tv, e1, e2, e3⟩ := s6 q hv
    refine ⟨sv, tv, e1, ?_, by rw [e2.2.1, aq.2.1, Nat.mul_one], ?_⟩
    · intro i hi
      obtain ⟨r, h1, h2⟩ := neural_eq (routine job') sc none chain q sv e2 i _ (belongs n nVal q aq i hi)
      refine ⟨r, h1, fun call => ?_⟩
      rw [h2]
      cases output (routine job') call sv.width r <;> rfl
    · rw [tab e3]
      simpa [table] using params n nVal q aq
  · intro hs r hrow
    rw [if_pos hs] at s4
    obtain ⟨f, -, f1, f2⟩ := s4 minMax rfl
    have rect : ∀ row ∈ p.stats.rows, row.length = p.stats.width := by
      intro row hrow
      obtain ⟨i, hi, rfl⟩ := List.mem_iff_getElem.1 hrow
      have hin : i < n := by have := ap.2.1; omega
      obtain ⟨row', h1, h2⟩ := belongs 0 n p ap i hin
      rw [List.getElem?_eq_getElem hi] at h1
      cases h1
      obtain ⟨x, hx, hxd⟩ := one (0 + i)
      have hone : OneSize [(draw (0 + i)).sims.flatten] d := ⟨by simp, by intro v hv; rw [hx] at hv; simp at hv; rw [hv]; exact hxd⟩
      rcases C84 chain d with hc | ⟨w, hc⟩
      · rw [hc _ hone] at h2; cases h2
      · obtain ⟨s, k1, k2, k3, -⟩ := hc _ hone
        rw [h2] at k1
        cases k1
        exact k3 _ (by simp)
    unfold minMax at f1
    split at f1
    · cases f1
    · rename_i first rest hfr
      split_ifs at f1
      cases f1
      simp only [ne_eq, not_true_eq_false, if_false] at f2
      injection f2 with f2
      rw [← f2] at hrow
      obtain ⟨row, hrow', rfl⟩ := List.mem_map.1 hrow
      rw [hfr] at hrow' rect
      exact Transform.C80_range 0 1 one_pos first rest (fun r hr => by rw [rect r (by simp [hr]), rect first (by simp)]) row hrow'

/-- For every data set of the draws `start, ..., start + m - 1`, of `perParam` each, the statistics that the object `e` returns are what the network makes of the row of `sims` for this data set, and the
row of `target` holds the parameters of the draw. -/
def SeesAll (e : Neural) (sims target : Stats) (draw : Nat → Draw) (perParam start m : Nat) (out : Nat → Nat → Row → Option Stats) : Prop :=
  sims.rows.length = m * perParam ∧ target.rows.length = m * perParam ∧
  ∀ i < m, ∀ (j : Nat) (x : Row), (draw (start + i)).sims[j]? = some x → target.rows[i * perParam + j]? = some (draw (start + i)).param ∧
    ∃ r, sims.rows[i * perParam + j]? = some r ∧ ∀ call, e.statistics call [x] = out call sims.width r

theorem scaled_rows {s t : Stats} (h : Scaled none s t) : t.rows = s.rows := by
  obtain ⟨-, b, c⟩ := h
  apply List.ext_getElem?
  intro i
  by_cases hi : i < s.rows.length
  · obtain ⟨r', h1, h2⟩ := c i s.rows[i] (List.getElem?_eq_getElem hi)
    rw [h1, List.getElem?_eq_getElem hi]
    injection h2 with h2
    injection h2 with _ h2
    injection h2 with h2
    rw [h2]
  · rw [List.getElem?_eq_none (by omega), List.getElem?_eq_none (by omega)]

theorem Aligned.sees {chain : List Step} {draw : Nat → Draw} {perParam start m : Nat} {p : Pairs} (hp : Aligned chain draw perParam start m p) (net : Net) (sc : Option Scaler) (t u : Stats)
    (ht : Scaled sc p.stats t) (hu : Scaled none (table p.params) u) : SeesAll ⟨⟨net.cls, net.state, net.mode, sc⟩, 1, false, none, chain⟩ t u draw perParam start m (output net) := by
  have hr : u.rows = p.params := scaled_rows hu
  refine ⟨by rw [ht.2.1, hp.2.1], by rw [hr, hp.1], ?_⟩
  intro i hi j x hx
  obtain ⟨hj, e⟩ := List.getElem?_eq_some_iff.1 hx
  obtain ⟨h1, row, h2, h3⟩ := hp.2.2 i j hi hj
  rw [e] at h3
  refine ⟨by rw [hr, h1], ?_⟩
  obtain ⟨r, h4, h5⟩ := neural_eq net sc none chain p t ht (i * perParam + j) x ⟨row, h2, h3⟩
  refine ⟨r, h4, fun call => ?_⟩
  rw [h5]
  cases output net call t.width r <;> rfl

/-- **C163, several data sets per parameter, partial.** The same for any number of data sets per parameter, if there is one, or if the previous statistics return the data: for every data set of every
draw the statistics that are returned afterwards are the output of the trained network at the row that it was trained on for this data set; its target are the parameters that the data set was simulated
with. The same holds for the validation set; with scaling every input of the training set lies in `[0, 1]`. Missing: other statistics with several data sets per parameter, see `C163_violated`. -/
theorem C163_several_partial (scaleSamples : Bool) (routine : Job → Net) (chain : List Step) (n nVal perParam d : Nat) (hn : n ≠ 0) (h0 : perParam ≠ 0) (hc : perParam = 1 ∨ Plain chain)
    (draw : Nat → Draw) (hr : Regular draw perParam d) (sets : Sets) (hl : learn chain n nVal perParam none none draw = some sets) (job : Job) (e : Neural)
    (h : learnNN scaleSamples routine chain sets = some (job, e)) :
    SeesAll e job.sims job.target draw perParam 0 n (output (routine job)) ∧ (nVal = 0 → job.val = none) ∧
    (nVal ≠ 0 → ∃ sv tv, job.val = some (sv, tv) ∧ SeesAll e sv tv draw perParam n nVal (output (routine job))) ∧
    (scaleSamples = true → ∀ r ∈ job.sims.rows, ∀ v ∈ r, 0 ≤ v ∧ v ≤ 1) := by
  obtain ⟨c1, c2⟩ := C65_partial chain n nVal perParam d none none draw hc hr sets hl
  obtain ⟨p, hp, ap⟩ := c1 rfl (by simp; omega)
  obtain ⟨q, hq, aq⟩ := c2 rfl (by simp; omega)
  simp only [if_true] at aq
  obtain ⟨⟨sc, job'⟩, hpre, he⟩ := Option.map_eq_some_iff.1 h
  cases he
  simp only at *
  obtain ⟨sp, s1, s2, s3, s4, s5, s6⟩ := prepare_spec (rowWise_fit scaleSamples) (by simp) hp hpre
  rw [s3 rfl] at s2 s6
  refine ⟨ap.sees _ _ _ _ s1 s2, ?_, ?_, ?_⟩
  · intro h0
    apply s5
    unfold validation
    rw [hq]
    have := aq.1
    simp [h0] at this
    simp [this]
  · intro hv0
    have hv : validation sets = some q := by
      unfold validation
      rw [hq]
      have := aq.1
      simp only
      rw [if_pos (by rw [this]; exact Nat.mul_pos (by omega) (by omega))]
    obtain ⟨sv, tv, e1, e2, e3⟩ := s6 q hv
    exact ⟨sv, tv, e1, aq.sees _ _ _ _ e2 e3⟩
  · intro hs r hrow
    rw [if_pos hs] at s4
    obtain ⟨f, -, f1, f2⟩ := s4 minMax rfl
    have rect : ∀ row ∈ p.stats.rows, row.length = p.stats.width := by
      intro row hrow
      obtain ⟨k, hk, rfl⟩ := List.mem_iff_getElem.1 hrow
      have hkn : k < n * perParam := by have := ap.2.1; omega
      have hi : k / perParam < n := Nat.div_lt_of_lt_mul (by rw [Nat.mul_comm]; exact hkn)
      have hj : k % perParam < (draw (0 + k / perParam)).sims.length := by rw [(hr _).1]; exact Nat.mod_lt _ (by omega)
      obtain ⟨-, row', h1, h2⟩ := ap.2.2 (k / perParam) (k % perParam) hi hj
      rw [Nat.mul_comm, Nat.div_add_mod, List.getElem?_eq_getElem hk] at h1
      cases h1
      have hone : OneSize [(draw (0 + k / perParam)).sims[k % perParam]] d := ⟨by simp, by
        intro v hv; rw [List.mem_singleton.1 hv]; exact (hr _).2 _ (List.getElem_mem _)⟩
      rcases C84 chain d with hc | ⟨w, hc⟩
      · rw [hc _ hone] at h2; cases h2
      · obtain ⟨s, k1, k2, k3, -⟩ := hc _ hone
        rw [h2] at k1
        cases k1
        exact k3 _ (by simp)
    unfold minMax at f1
    split at f1
    · cases f1
    · rename_i first rest hfr
      split_ifs at f1
      cases f1
      simp only [ne_eq, not_true_eq_false, if_false] at f2
      injection f2 with f2
      rw [← f2] at hrow
      obtain ⟨row, hrow', rfl⟩ := List.mem_map.1 hrow
      rw [hfr] at hrow' rect
      exact Transform.C80_range 0 1 one_pos first rest (fun r hr => by rw [rect r (by simp [hr]), rect first (by simp)]) row hrow'

theorem unwrap_wrap (d : Embedding.Dict) : Embedding.unwrap (d.map fun e => (.attr "net" :: e.1, e.2)) = d := by
  induction d with
  | nil => rfl
  | cons e d ih =>
    unfold Embedding.unwrap at ih ⊢
    simp [ih]

/-- The network whose last output is discarded. -/
theorem output_wrapped (net : Net) (call w : Nat) (r : Row) :
    output ⟨discard net.cls, net.state.map fun e => (.attr "net" :: e.1, e.2), net.mode, none⟩ call w r = (output net call w r).map Embedding.dropLast := by
  unfold output Net.apply
  cases net.mode <;> simp [Embedding.discard, unwrap_wrap]

/-- **C163, score matching, partial.** As `C163_network_partial`, for any bounds of the data: the statistics that are returned give for the data set of draw `i` the output of the trained network at the
row it was trained on for draw `i`, without its last column and, if wanted, divided by fixed numbers. -/
theorem C163_score_partial (f32 : ℝ → ℝ) (bounds : Option (List Transform.Bound)) (scaleSamples scaleParameters rescaled : Bool) (routine : Job → Net) (chain : List Step) (n nVal d : Nat)
    (hn : n ≠ 0) (draw : Nat → Draw) (hr : Regular draw 1 d) (sets : Sets) (hl : learn chain n nVal 1 none none draw = some sets) (job : Job) (e : Neural)
    (h : learnScore f32 bounds scaleSamples scaleParameters rescaled routine chain sets = some (job, e)) :
    ∃ sd, (rescaled = false → sd = none) ∧
    Sees e job.sims n (fun i => (draw i).sims.flatten) (fun call w r => ((output (routine job) call w r).map Embedding.dropLast).bind (rescale sd)) ∧ job.sims.rows.length = n ∧
    (nVal ≠ 0 → ∃ sv tv, job.val = some (sv, tv) ∧
      Sees e sv nVal (fun i => (draw (n + i)).sims.flatten) (fun call w r => ((output (routine job) call w r).map Embedding.dropLast).bind (rescale sd)) ∧ sv.rows.length = nVal) := by
  obtain ⟨c1, c2⟩ := C65_partial chain n nVal 1 d none none draw (.inl rfl) hr sets hl
  obtain ⟨p, hp, ap⟩ := c1 rfl (by simp; omega)
  obtain ⟨q, hq, aq⟩ := c2 rfl (by simp; omega)
  simp only [if_true] at aq
  unfold learnScore at h
  cases hpre : prepare (bounds.map fun bs => boundedScaler f32 bs scaleSamples) (if scaleParameters then some minMax else none) sets with
  | none => rw [hpre] at h; cases h
  | some r =>
    obtain ⟨sc, job'⟩ := r
    rw [hpre] at h
    obtain ⟨e', he, h⟩ := Option.map_eq_some_iff.1 h
    cases h
    obtain ⟨sp, s1, -, -, -, -, s6⟩ := prepare_spec (by
      intro g hg a f hf
      obtain ⟨bs, -, rfl⟩ := Option.map_eq_some_iff.1 hg
      exact bounded_rowWise hf) (rowWise_fit scaleParameters) hp hpre
    have form : ∃ sd, (rescaled = false → sd = none) ∧
        e = ⟨⟨discard (routine job').cls, (routine job').state.map fun e => (.attr "net" :: e.1, e.2), (routine job').mode, sc⟩, 1, false, sd, chain⟩ := by
      unfold Embedding.scoreStatistics at he
      split_ifs at he with hc
      · obtain ⟨e0, h0, h1⟩ := Option.map_eq_some_iff.1 he
        unfold Embedding.Neural.new at h0
        obtain ⟨s, -, h2⟩ := Option.bind_eq_some_iff.1 h0
        split_ifs at h2
        cases h2
        exact ⟨_, by simp [hc], h1.symm⟩
      · cases he
        exact ⟨none, fun _ => rfl, rfl⟩
    obtain ⟨sd, hsd, rfl⟩ := form
    refine ⟨sd, hsd, ?_, by rw [s1.2.1, ap.2.1, Nat.mul_one], ?_⟩
    · intro i hi
      have hb := Aligned.belongs hr ap i hi
      rw [Nat.zero_add] at hb
      obtain ⟨r, h1, h2⟩ := neural_eq ⟨discard (routine job').cls, (routine job').state.map fun e => (.attr "net" :: e.1, e.2), (routine job').mode, none⟩ sc sd chain p job'.sims s1 i _ hb
      refine ⟨r, h1, fun call => ?_⟩
      rw [h2, output_wrapped]
    · intro h0
      have hv : validation sets = some q := by
        unfold validation
        rw [hq]
        have := aq.1
        simp only
        rw [if_pos (by omega)]
      obtain ⟨sv, tv, e1, e2, -⟩ := s6 q hv
      refine ⟨sv, tv, e1, ?_, by rw [e2.2.1, aq.2.1, Nat.mul_one]⟩
      intro i hi
      obtain ⟨r, h1, h2⟩ := neural_eq ⟨discard (routine job').cls, (routine job').state.map fun e => (.attr "net" :: e.1, e.2), (routine job').mode, none⟩ sc sd chain q sv e2 i _ (Aligned.belongs hr aq i hi)
      refine ⟨r, h1, fun call => ?_⟩
      rw [h2, output_wrapped]

/-- **C163, data given by the user.** With given parameters and simulations (of one size), whatever is generated or given for validation: the network is trained on one row for each simulation, and the
statistics returned afterwards give for simulation `i` the output of the network at row `i`. -/
theorem C163_provided (scaleSamples : Bool) (routine : Job → Net) (chain : List Step) (n nVal perParam k : Nat) (params sims : List Row) (hk : OneSize sims k) (val : Option (List Row × List Row))
    (draw : Nat → Draw) (sets : Sets) (hl : learn chain n nVal perParam (some (params, sims)) val draw = some sets) (job : Job) (e : Neural)
    (h : learnNN scaleSamples routine chain sets = some (job, e)) :
    Sees e job.sims sims.length (fun i => sims.getD i []) (output (routine job)) ∧ job.sims.rows.length = sims.length ∧ params.length = sims.length := by
  have hp : ∃ p, sets.train = some p ∧ provided chain (params, sims) = some p := by
    unfold learn at hl
    split at hl
    · cases hl
    · simp only at hl
      split at hl
      · cases hl
      · rename_i p hp
        cases val with
        | none => cases hl; exact ⟨p, rfl, hp⟩
        | some v =>
          obtain ⟨q, -, rfl⟩ := Option.map_eq_some_iff.1 hl
          exact ⟨p, rfl, hp⟩
  obtain ⟨p, hp, hpro⟩ := hp
  unfold provided at hpro
  simp only at hpro
  split_ifs at hpro with hlen
  obtain ⟨s, hs, hps⟩ := Option.map_eq_some_iff.1 hpro
  have hps' : p.stats = s := by rw [← hps]
  rcases C84 chain k with hc | ⟨w, hc⟩
  · rw [hc sims hk] at hs; cases hs
  obtain ⟨s', k1, k2, k3, k4, k5⟩ := hc sims hk
  rw [k1] at hs
  cases hs
  obtain ⟨⟨sc, job'⟩, hpre, he⟩ := Option.map_eq_some_iff.1 h
  cases he
  simp only at *
  obtain ⟨sp, s1, -, -, -, -, -⟩ := prepare_spec (rowWise_fit scaleSamples) (by simp) hp hpre
  refine ⟨?_, by rw [s1.2.1, hps', k4], by omega⟩
  intro i hi
  have hb : Belongs chain p i (sims.getD i []) := by
    refine ⟨s.rows[i]'(by omega), by rw [hps', List.getElem?_eq_getElem (by omega)], ?_⟩
    have := k5 i hi (by omega)
    rw [List.getD_eq_getElem?_getD, List.getElem?_eq_getElem hi, hps', k2]
    exact this
  obtain ⟨r, h1, h2⟩ := neural_eq (routine job') sc none chain p job'.sims s1 i _ hb
  refine ⟨r, h1, fun call => ?_⟩
  rw [h2]
  cases output (routine job') call job'.sims.width r <;> rfl

/-! ## Two data sets per parameter -/

/-- A network that returns its input. -/
def idNet : Net := ⟨⟨[], fun _ s => some s, fun _ _ s => some s⟩, [], .eval, none⟩

/-- **C163 fails** for two data sets per parameter and statistics with squares: the network is trained on the row (2, 3) for the data set 2, and later gets (2, 4) for it. -/
theorem C163_violated : ∃ (sets : Sets) (job : Job) (e : Neural),
    learn [⟨.identity, 2, false, none⟩] 2 0 2 none none (fun i => ⟨[i], [[2], [3]]⟩) = some sets ∧
    learnNN false (fun _ => idNet) [⟨.identity, 2, false, none⟩] sets = some (job, e) ∧ job.sims.rows[0]? = some [2, 3] ∧ e.statistics 0 [[2]] = some ⟨2, [[2, 4]]⟩ := by
  obtain ⟨sets, p, h1, h2, h3, h4⟩ := C65_violated
  have hpre : ∃ v, prepare none none sets = some (none, ⟨p.stats, table p.params, v⟩) := by
    unfold prepare
    rw [h2]
    simp only [scaleBoth]
    exact ⟨_, rfl⟩
  obtain ⟨v, hpre⟩ := hpre
  refine ⟨sets, ⟨p.stats, table p.params, v⟩, ⟨⟨idNet.cls, idNet.state, idNet.mode, none⟩, 1, false, none, [⟨.identity, 2, false, none⟩]⟩, h1, ?_, ?_, ?_⟩
  · unfold learnNN
    simp only [Bool.false_eq_true, if_false, hpre, Option.map_some]
  · simp [h3]
  · unfold Neural.statistics
    rw [h4]
    simp [Net.apply, idNet, Embedding.Examples.expand_plain, rescale]

/-- Three draws for training and one for validation, with scaling: the network is trained on 0, 1/2 and 1; the data set of the validation set becomes 3/2. -/
example : ∃ (sets : Sets) (job : Job) (e : Neural), learn [] 3 1 1 none none (fun i => ⟨[i], [[2 * i]]⟩) = some sets ∧
    learnNN true (fun _ => idNet) [] sets = some (job, e) ∧ job.sims.rows = [[0], [1 / 2], [1]] ∧ job.val.map (fun v => v.1.rows) = some [[3 / 2]] := by
  have hl : learn [] 3 1 1 none none (fun i => ⟨[(i : ℝ)], [[2 * (i : ℝ)]]⟩) = some ⟨some ⟨[[0], [1], [2]], ⟨1, [[0], [2], [4]]⟩⟩, some ⟨[[3]], ⟨1, [[6]]⟩⟩⟩ := by
    rw [learn]
    rw [generatedSets]
    norm_num [toGenerate, generate, drawStatistics, statistics, toArray, List.range_succ, collect, reshape, Pairs.slice]
  have hm : ∃ f, minMax ⟨1, [[0], [2], [4]]⟩ = some f ∧ f ⟨1, [[0], [2], [4]]⟩ = some ⟨1, [[0], [1 / 2], [1]]⟩ ∧ f ⟨1, [[6]]⟩ = some ⟨1, [[3 / 2]]⟩ := by
    unfold minMax
    simp only [one_ne_zero, if_false]
    refine ⟨_, rfl, ?_, ?_⟩ <;> norm_num [Transform.fit, Transform.fitCol, Transform.scale]
  obtain ⟨f, h1, h2, h3⟩ := hm
  refine ⟨_, ⟨⟨1, [[0], [1 / 2], [1]]⟩, table [[0], [1], [2]], some (⟨1, [[3 / 2]]⟩, table [[3]])⟩, ⟨⟨idNet.cls, idNet.state, idNet.mode, some f⟩, 1, false, none, []⟩, hl, ?_, rfl, rfl⟩
  unfold learnNN prepare
  simp [validation, scaleBoth, h1, h2, h3]

/-- The hypotheses of `C163_several_partial` hold: two draws with two data sets each, no validation set. -/
example : ∃ (sets : Sets) (job : Job) (e : Neural), Regular (fun i => ⟨[(i : ℝ)], [[2 * (i : ℝ)], [3]]⟩) 2 1 ∧ Plain [] ∧
    learn [] 2 0 2 none none (fun i => ⟨[i], [[2 * i], [3]]⟩) = some sets ∧ learnNN false (fun _ => idNet) [] sets = some (job, e) ∧
    job.sims.rows = [[0], [3], [2], [3]] ∧ job.target.rows = [[0], [0], [1], [1]] ∧ job.val = none := by
  have hl : learn [] 2 0 2 none none (fun i => ⟨[(i : ℝ)], [[2 * (i : ℝ)], [3]]⟩) = some ⟨some ⟨[[0], [0], [1], [1]], ⟨1, [[0], [3], [2], [3]]⟩⟩, some ⟨[], ⟨1, []⟩⟩⟩ := by
    rw [learn]
    rw [generatedSets]
    norm_num [toGenerate, generate, drawStatistics, statistics, toArray, List.range_succ, collect, reshape, Pairs.slice]
    rfl
  refine ⟨_, ⟨⟨1, [[0], [3], [2], [3]]⟩, table [[0], [0], [1], [1]], none⟩, ⟨⟨idNet.cls, idNet.state, idNet.mode, none⟩, 1, false, none, []⟩, fun i => ⟨rfl, by simp⟩, by simp [Plain], hl, ?_, rfl, rfl, rfl⟩
  unfold learnNN prepare
  simp [validation, scaleBoth]

end Verif.Learning
