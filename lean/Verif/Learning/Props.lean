import Verif.Learning.Model
import Verif.Statistics.Props

/-!
# C65: alignment and sizes of the training data
-/

namespace Verif.Learning

open Verif.Distance (Stats Row)
open Verif.Statistics

/-! ## Specification -/

/-- Every draw holds `perParam` data sets of size `d`. -/
def Regular (draw : Nat → Draw) (perParam d : Nat) : Prop :=
  ∀ i, (draw i).sims.length = perParam ∧ ∀ x ∈ (draw i).sims, x.length = d

/-- The pair of arrays has exactly one row for every simulation of the draws `start, ..., start + n - 1`:
row `i * perParam + j` holds the parameters of draw `start + i` and the statistics of its `j`-th data set. -/
def Aligned (chain : List Step) (draw : Nat → Draw) (perParam start n : Nat) (p : Pairs) : Prop :=
  p.params.length = n * perParam ∧ p.stats.rows.length = n * perParam ∧
  ∀ i j, i < n → (hj : j < (draw (start + i)).sims.length) →
    p.params[i * perParam + j]? = some (draw (start + i)).param ∧
    ∃ row, p.stats.rows[i * perParam + j]? = some row ∧
      statistics chain [(draw (start + i)).sims[j]] = some ⟨p.stats.width, [row]⟩

/-- Statistics objects that return the data unchanged. -/
def Plain (chain : List Step) : Prop := ∀ p ∈ chain, p.kind = .identity ∧ p.degree ≤ 1 ∧ p.cross = false ∧ p.std = none

/-! ## Lemmas -/

theorem chunks_flatten (w : Nat) : ∀ (L : List Row), (∀ r ∈ L, r.length = w) →
    (List.range L.length).map (fun i => (L.flatten.drop (i * w)).take w) = L := by
  intro L
  induction L with
  | nil => intro _; rfl
  | cons r L ih =>
    intro h
    have hr : r.length = w := h r (by simp)
    rw [List.length_cons, List.range_succ_eq_map, List.map_cons, List.map_map]
    congr 1
    · rw [List.flatten_cons, Nat.zero_mul, List.drop_zero, ← hr, List.take_left']; rfl
    · refine Eq.trans (List.map_congr_left fun i _ => ?_) (ih fun q hq => h q (by simp [hq]))
      show ((r :: L).flatten.drop ((i + 1) * w)).take w = _
      rw [List.flatten_cons, Nat.succ_mul, Nat.add_comm, ← List.drop_drop]
      congr 2
      rw [← hr, List.drop_left]

theorem flatten_length (w : Nat) : ∀ (L : List Row), (∀ r ∈ L, r.length = w) → L.flatten.length = L.length * w := by
  intro L
  induction L with
  | nil => intro _; simp
  | cons r L ih =>
    intro h
    rw [List.flatten_cons, List.length_append, ih fun q hq => h q (by simp [hq]), h r (by simp), List.length_cons,
      Nat.succ_mul, Nat.add_comm]

theorem reshape_eq (m w : Nat) (hm : m ≠ 0) (rows L : List Row) (hL : L.length = m) (hw : ∀ r ∈ L, r.length = w)
    (h : rows.flatten = L.flatten) : reshape m rows = some ⟨w, L⟩ := by
  have hl : rows.flatten.length = m * w := by rw [h, flatten_length w L hw, hL]
  rw [reshape, if_neg (by rw [hl]; simp [hm])]
  have hq : rows.flatten.length / m = w := by rw [hl, Nat.mul_div_cancel_left _ (Nat.pos_of_ne_zero hm)]
  simp only [hq]
  rw [h, ← hL, chunks_flatten w L hw]

theorem reshape_length (m : Nat) (rows : List Row) (s : Stats) (h : reshape m rows = some s) :
    s.rows.length = m ∧ m ≠ 0 := by
  rw [reshape] at h
  split at h
  · exact absurd h (by simp)
  · rename_i hc
    obtain rfl := Option.some.inj h
    exact ⟨by simp, fun h0 => hc (.inl h0)⟩

theorem Plain.step {p : Step} (h : p.kind = .identity ∧ p.degree ≤ 1 ∧ p.cross = false ∧ p.std = none) (s : Stats) :
    p.apply s = some s := by
  obtain ⟨h1, h2, h3, h4⟩ := h
  have hd : p.degree + 1 - 2 = 0 := by omega
  rw [Step.apply, h1, Kind.apply, Option.bind_some, h4, rescale, expand, h3]
  simp [powers, hd]

theorem Plain.statistics {chain : List Step} (h : Plain chain) (x : Row) : statistics chain [x] = some ⟨x.length, [x]⟩ := by
  rw [Statistics.statistics, toArray_eq [x] x.length ⟨by simp, by simp⟩, Option.bind_some]
  have : ∀ (l : List Step), (∀ p ∈ l, p.kind = .identity ∧ p.degree ≤ 1 ∧ p.cross = false ∧ p.std = none) →
      ∀ s : Stats, l.foldlM (fun s p => p.apply s) s = some s := by
    intro l
    induction l with
    | nil => intro _ s; rfl
    | cons p l ih =>
      intro hl s
      rw [List.foldlM_cons, Plain.step (hl p (by simp))]
      exact ih (fun q hq => hl q (by simp [hq])) s
  exact this chain h _

theorem flatMap_replicate_get (k : Nat) : ∀ (L : List Draw) (i j : Nat), j < k → (h : i < L.length) →
    (L.flatMap fun d => List.replicate k d.param)[i * k + j]? = some L[i].param := by
  intro L
  induction L with
  | nil => intro i j _ h; simp at h
  | cons d L ih =>
    intro i j hj h
    rw [List.flatMap_cons]
    cases i with
    | zero => rw [List.getElem?_append_left (by simpa using hj)]; simp [List.getElem?_replicate, hj]
    | succ i =>
      rw [List.getElem?_append_right (by simp [Nat.succ_mul]; omega)]
      have : (i + 1) * k + j - (List.replicate k d.param).length = i * k + j := by
        simp [Nat.succ_mul]; omega
      rw [this, ih i j hj (by simpa using h)]
      simp

theorem flatMap_replicate_length (k : Nat) (L : List Draw) :
    (L.flatMap fun d => List.replicate k d.param).length = L.length * k := by
  rw [List.length_flatMap]; simp

theorem flatMap_sims_get (k : Nat) (φ : Row → Row) : ∀ (L : List Draw), (∀ d ∈ L, d.sims.length = k) → ∀ (i j : Nat) (h : i < L.length)
    (hj : j < L[i].sims.length), (L.flatMap fun d => d.sims.map φ)[i * k + j]? = some (φ L[i].sims[j]) := by
  intro L
  induction L with
  | nil => intro _ i j h; simp at h
  | cons d L ih =>
    intro hk i j h hj
    rw [List.flatMap_cons]
    have hd : d.sims.length = k := hk d (by simp)
    cases i with
    | zero =>
      have hj' : j < d.sims.length := hj
      rw [Nat.zero_mul, Nat.zero_add, List.getElem?_append_left (by simpa using hj')]
      simp [hj']
    | succ i =>
      have e : (i + 1) * k + j = (d.sims.map φ).length + (i * k + j) := by
        rw [List.length_map, hd, Nat.succ_mul]; omega
      rw [e, List.getElem?_append_right (by omega), Nat.add_sub_cancel_left]
      exact ih (fun q hq => hk q (by simp [hq])) i j (by simpa using h) hj

theorem flatMap_sims_length (k : Nat) (φ : Row → Row) (L : List Draw) (h : ∀ d ∈ L, d.sims.length = k) :
    (L.flatMap fun d => d.sims.map φ).length = L.length * k := by
  induction L with
  | nil => simp
  | cons d L ih =>
    rw [List.flatMap_cons, List.length_append, ih fun q hq => h q (by simp [hq]), List.length_map, h d (by simp),
      List.length_cons, Nat.succ_mul, Nat.add_comm]

/-- When there is one data set per parameter, or the statistics are the data, the generated arrays have
one row per data set. -/
theorem generate_eq (chain : List Step) (perParam d : Nat) (hp : perParam = 1 ∨ Plain chain) (h0 : perParam ≠ 0) :
    (perParam = 1 ∧ ∀ x : Row, x.length = d → statistics chain [x] = none) ∨
    ∃ (w : Nat) (φ : Row → Row), (∀ x : Row, x.length = d → statistics chain [x] = some ⟨w, [φ x]⟩) ∧
      ∀ L : List Draw, L ≠ [] → (∀ e ∈ L, e.sims.length = perParam ∧ ∀ x ∈ e.sims, x.length = d) →
        generate chain perParam L =
          some ⟨L.flatMap fun e => List.replicate perParam e.param, ⟨w, L.flatMap fun e => e.sims.map φ⟩⟩ := by
  by_cases hpl : Plain chain
  · refine .inr ⟨d, id, fun x hx => by rw [hpl.statistics, hx]; rfl, fun L hL hs => ?_⟩
    have hst : L.map (drawStatistics chain) = (L.map fun e => (⟨e.sims.flatten.length, [e.sims.flatten]⟩ : Stats)).map some := by
      rw [List.map_map]
      exact List.map_congr_left fun e _ => hpl.statistics _
    rw [generate]
    rw [hst, collect_map_some]
    simp only
    rw [reshape_eq (L.length * perParam) d (by simp [hL, h0]) _ (L.flatMap fun e => e.sims.map id)
      (flatMap_sims_length perParam id L fun e he => (hs e he).1)]
    · intro r hr
      obtain ⟨e, he, hr⟩ := List.mem_flatMap.1 hr
      simp only [List.map_id] at hr
      exact (hs e he).2 r hr
    · simp only [List.map_id]
      clear hst hs hL
      induction L with
      | nil => rfl
      | cons e L ih => simp only [List.map_cons, List.flatMap_cons, List.flatten_append, List.flatten_cons, List.flatten_nil,
          List.append_nil, ih]
  · have h1 : perParam = 1 := hp.resolve_right hpl
    subst h1
    rcases rowWise_chain chain d with h | ⟨w, φ, hl, h⟩
    · refine .inl ⟨rfl, fun x hx => ?_⟩
      rw [statistics, toArray_eq [x] d ⟨by simp, by simpa using hx⟩, Option.bind_some]
      exact h _ rfl (by intro r hr; simp at hr; rw [hr, hx])
    · have key : ∀ x : Row, x.length = d → statistics chain [x] = some ⟨w, [φ x]⟩ := by
        intro x hx
        rw [statistics, toArray_eq [x] d ⟨by simp, by simpa using hx⟩, Option.bind_some]
        exact h _ rfl (by intro r hr; simp at hr; rw [hr, hx])
      refine .inr ⟨w, φ, key, fun L hL hs => ?_⟩
      have hst : L.map (drawStatistics chain) = (L.map fun e => (⟨w, e.sims.map φ⟩ : Stats)).map some := by
        rw [List.map_map]
        refine List.map_congr_left fun e he => ?_
        obtain ⟨x, hx⟩ := List.length_eq_one_iff.1 (hs e he).1
        have hxd := (hs e he).2 x (by simp [hx])
        simp only [drawStatistics, Function.comp_apply, hx, List.flatten_cons, List.flatten_nil, List.append_nil,
          List.map_cons, List.map_nil]
        exact key x hxd
      rw [generate]
      rw [hst, collect_map_some]
      simp only
      rw [reshape_eq (L.length * 1) w (by simp [hL]) _ (L.flatMap fun e => e.sims.map φ)
        (flatMap_sims_length 1 φ L fun e he => (hs e he).1)]
      · intro r hr
        obtain ⟨e, he, hr⟩ := List.mem_flatMap.1 hr
        obtain ⟨x, hx, rfl⟩ := List.mem_map.1 hr
        exact hl x ((hs e he).2 x hx)
      · rw [List.flatMap_map]

/-! ## C65 -/

/-- C65: the generated training and validation sets have one row for every simulation, the rows of
parameters and statistics belong together, and the two sets use different draws. This holds for one data
set per parameter, or for statistics that return the data. -/
theorem C65_partial (chain : List Step) (n nVal perParam d : Nat) (train val : Option (List Row × List Row))
    (draw : Nat → Draw) (hp : perParam = 1 ∨ Plain chain) (hr : Regular draw perParam d) (sets : Sets)
    (h : learn chain n nVal perParam train val draw = some sets) :
    (train = none → n + (if val = none then nVal else 0) ≠ 0 →
      ∃ p, sets.train = some p ∧ Aligned chain draw perParam 0 n p) ∧
    (val = none → (if train = none then n else 0) + nVal ≠ 0 →
      ∃ p, sets.val = some p ∧ Aligned chain draw perParam (if train = none then n else 0) nVal p) := by
  -- the generated pairs
  have main : toGenerate n nVal train val ≠ 0 → ∃ g, generatedSets chain n nVal perParam train val draw = some g ∧
      (train = none → ∃ p, g.train = some p ∧ Aligned chain draw perParam 0 n p) ∧
      (val = none → ∃ p, g.val = some p ∧ Aligned chain draw perParam (if train = none then n else 0) nVal p) := by
    intro hk
    have hg : generatedSets chain n nVal perParam train val draw ≠ none := by
      intro hn
      rw [learn] at h
      rw [hn] at h
      simp at h
    obtain ⟨g, hg⟩ := Option.ne_none_iff_exists'.1 hg
    refine ⟨g, hg, ?_⟩
    rw [generatedSets] at hg
    simp only at hg
    rw [if_neg hk] at hg
    split at hg
    · exact absurd hg (by simp)
    rename_i hk1
    obtain ⟨q, hq, rfl⟩ := Option.map_eq_some_iff.1 hg
    have h0 : perParam ≠ 0 := by
      intro h0
      rw [generate] at hq
      split at hq
      · exact absurd hq (by simp)
      · split at hq
        · exact absurd hq (by simp)
        · rename_i hre
          exact (reshape_length _ _ _ hre).2 (by simp [h0])
    set L := (List.range (toGenerate n nVal train val)).map draw with hL
    have hreg : ∀ e ∈ L, e.sims.length = perParam ∧ ∀ x ∈ e.sims, x.length = d := by
      intro e he
      obtain ⟨i, -, rfl⟩ := List.mem_map.1 he
      exact hr i
    have hLne : L ≠ [] := by simp [hL, hk]
    rcases generate_eq chain perParam d hp h0 with ⟨h1, hno⟩ | ⟨w, φ, hφ, hgen⟩
    · -- every data set is refused
      exfalso
      rw [generate] at hq
      split at hq
      · exact absurd hq (by simp)
      rename_i out hout
      obtain ⟨e, L', hLe⟩ := List.exists_cons_of_ne_nil hLne
      have hre := hreg e (by simp [hLe])
      rw [h1] at hre
      obtain ⟨x, hx⟩ := List.length_eq_one_iff.1 hre.1
      have hnone : drawStatistics chain e = none := by
        simp only [drawStatistics, hx, List.flatten_cons, List.flatten_nil, List.append_nil]
        exact hno x (hre.2 x (by simp [hx]))
      have : collect (L.map (drawStatistics chain)) = none := by
        rw [collect_eq_none, hLe, List.map_cons, hnone]; simp
      rw [this] at hout
      simp at hout
    · rw [hgen L hLne hreg] at hq
      obtain rfl := Option.some.inj hq
      have hlen : L.length = toGenerate n nVal train val := by simp [hL]
      have hget : ∀ i (hi : i < L.length), L[i] = draw i := by intro i hi; simp [hL]
      have hsl := flatMap_sims_length perParam φ L fun e he => (hreg e he).1
      have hpl := flatMap_replicate_length perParam L
      have rowAt : ∀ i j, i < L.length → (hj : j < (draw i).sims.length) →
          (L.flatMap fun e => List.replicate perParam e.param)[i * perParam + j]? = some (draw i).param ∧
          (L.flatMap fun e => e.sims.map φ)[i * perParam + j]? = some (φ (draw i).sims[j]) := by
        intro i j hi hj
        have hjk : j < perParam := by rw [(hr i).1] at hj; exact hj
        refine ⟨by rw [flatMap_replicate_get perParam L i j hjk hi, hget i hi], ?_⟩
        rw [flatMap_sims_get perParam φ L (fun e he => (hreg e he).1) i j hi (by rw [hget i hi]; exact hj)]
        simp only [hget i hi]
      have bound : ∀ i j m, i < m → j < perParam → i * perParam + j < m * perParam := by
        intro i j m hi hj
        have : (i + 1) * perParam ≤ m * perParam := Nat.mul_le_mul_right _ hi
        rw [Nat.succ_mul] at this
        omega
      constructor
      · intro ht
        refine ⟨_, rfl, ?_⟩
        have hkn : n ≤ L.length := by rw [hlen, toGenerate, if_pos ht]; omega
        have hnk : n * perParam ≤ L.length * perParam := Nat.mul_le_mul_right _ hkn
        refine ⟨?_, ?_, fun i j hi hj => ?_⟩
        · simp only [Pairs.slice, if_pos ht, Nat.mul_one, List.drop_zero, List.length_take, hpl]
          exact Nat.min_eq_left hnk
        · simp only [Pairs.slice, if_pos ht, Nat.mul_one, List.drop_zero, List.length_take, hsl]
          exact Nat.min_eq_left hnk
        · simp only [Nat.zero_add] at hj ⊢
          have hjk : j < perParam := by rw [(hr i).1] at hj; exact hj
          obtain ⟨r1, r2⟩ := rowAt i j (by omega) hj
          simp only [Pairs.slice, if_pos ht, Nat.mul_one, List.drop_zero]
          rw [List.getElem?_take_of_lt (bound i j n hi hjk), List.getElem?_take_of_lt (bound i j n hi hjk)]
          exact ⟨r1, _, r2, hφ _ ((hr i).2 _ (List.getElem_mem hj))⟩
      · intro hv
        refine ⟨_, rfl, ?_⟩
        set o := if train = none then n else 0 with ho
        have hc : n * perParam * (if train = none then 1 else 0) = o * perParam := by
          rw [ho]; split <;> simp
        have hLo : L.length = o + nVal := by rw [hlen, toGenerate, if_pos hv]
        rw [hc]
        have htk : ∀ l : List Row, l.length = L.length * perParam →
            List.take (L.flatMap fun e => e.sims.map φ).length l = l := by
          intro l hl
          rw [hsl, ← hl, List.take_length]
        refine ⟨?_, ?_, fun i j hi hj => ?_⟩
        · simp only [Pairs.slice]
          rw [htk _ hpl, List.length_drop, hpl, hLo, Nat.add_mul]; omega
        · simp only [Pairs.slice]
          rw [htk _ hsl, List.length_drop, hsl, hLo, Nat.add_mul]; omega
        · obtain ⟨r1, r2⟩ := rowAt (o + i) j (by omega) hj
          simp only [Pairs.slice]
          rw [htk _ hpl, htk _ hsl, List.getElem?_drop, List.getElem?_drop, ← Nat.add_assoc, ← Nat.add_mul]
          exact ⟨r1, _, r2, hφ _ ((hr _).2 _ (List.getElem_mem hj))⟩
  constructor
  · intro ht hk
    have hk' : toGenerate n nVal train val ≠ 0 := by rw [toGenerate, if_pos ht]; exact hk
    obtain ⟨g, hg, hgt, -⟩ := main hk'
    obtain ⟨p, hp', ha⟩ := hgt ht
    refine ⟨p, ?_, ha⟩
    rw [learn] at h
    rw [hg] at h
    subst ht
    cases val with
    | none => simp only [Option.some.injEq] at h; rw [← h]; exact hp'
    | some v =>
      simp only at h
      obtain ⟨q, -, rfl⟩ := Option.map_eq_some_iff.1 h
      exact hp'
  · intro hv hk
    have hk' : toGenerate n nVal train val ≠ 0 := by rw [toGenerate, if_pos hv]; exact hk
    obtain ⟨g, hg, -, hgv⟩ := main hk'
    obtain ⟨p, hp', ha⟩ := hgv hv
    refine ⟨p, ?_, ha⟩
    rw [learn] at h
    rw [hg] at h
    subst hv
    cases train with
    | none => simp only [Option.some.injEq] at h; rw [← h]; exact hp'
    | some t =>
      simp only at h
      split at h
      · exact absurd h (by simp)
      · rw [← Option.some.inj h]; exact hp'

theorem generate_length (chain : List Step) (perParam : Nat) (L : List Draw) (p : Pairs) (h : generate chain perParam L = some p) :
    p.params.length = L.length * perParam ∧ p.stats.rows.length = L.length * perParam := by
  rw [generate] at h
  split at h
  · exact absurd h (by simp)
  · split at h
    · exact absurd h (by simp)
    · rename_i s hs
      obtain rfl := Option.some.inj h
      exact ⟨flatMap_replicate_length _ _, (reshape_length _ _ _ hs).1⟩

/-- C65, sizes for all statistics and provided data: a generated set has the requested number of rows in
both arrays; a provided set is used as it is, with the statistics of every provided simulation. -/
theorem C65_sizes (chain : List Step) (n nVal perParam : Nat) (train val : Option (List Row × List Row))
    (draw : Nat → Draw) (sets : Sets) (h : learn chain n nVal perParam train val draw = some sets) :
    (train = none → n + (if val = none then nVal else 0) ≠ 0 → ∃ p, sets.train = some p ∧
      p.params.length = n * perParam ∧ p.stats.rows.length = n * perParam) ∧
    (val = none → (if train = none then n else 0) + nVal ≠ 0 → ∃ p, sets.val = some p ∧
      p.params.length = nVal * perParam ∧ p.stats.rows.length = nVal * perParam) ∧
    (∀ t, train = some t → ∃ p, sets.train = some p ∧ p.params = t.1 ∧ t.2.length = t.1.length ∧
      statistics chain t.2 = some p.stats) ∧
    (∀ v, val = some v → ∃ p, sets.val = some p ∧ p.params = v.1 ∧ v.2.length = v.1.length ∧
      statistics chain v.2 = some p.stats) := by
  have prov : ∀ t p, provided chain t = some p → p.params = t.1 ∧ t.2.length = t.1.length ∧
      statistics chain t.2 = some p.stats := by
    intro t p hp
    rw [provided] at hp
    split at hp
    · exact absurd hp (by simp)
    · rename_i hl
      obtain ⟨s, hs, rfl⟩ := Option.map_eq_some_iff.1 hp
      exact ⟨rfl, not_not.1 hl, hs⟩
  rw [learn] at h
  split at h
  · exact absurd h (by simp)
  rename_i g hg
  have hgen : toGenerate n nVal train val ≠ 0 →
      (train = none → ∃ p, g.train = some p ∧ p.params.length = n * perParam ∧ p.stats.rows.length = n * perParam) ∧
      (val = none → ∃ p, g.val = some p ∧ p.params.length = nVal * perParam ∧ p.stats.rows.length = nVal * perParam) := by
    intro hk
    rw [generatedSets] at hg
    simp only at hg
    rw [if_neg hk] at hg
    split at hg
    · exact absurd hg (by simp)
    obtain ⟨q, hq, rfl⟩ := Option.map_eq_some_iff.1 hg
    obtain ⟨l1, l2⟩ := generate_length _ _ _ _ hq
    simp only [List.length_map, List.length_range] at l1 l2
    constructor
    · intro ht
      refine ⟨_, rfl, ?_⟩
      have hnk : n * perParam ≤ toGenerate n nVal train val * perParam :=
        Nat.mul_le_mul_right _ (by rw [toGenerate, if_pos ht]; omega)
      simp only [Pairs.slice, if_pos ht, Nat.mul_one, List.drop_zero, List.length_take, l1, l2]
      exact ⟨Nat.min_eq_left hnk, Nat.min_eq_left hnk⟩
    · intro hv
      refine ⟨_, rfl, ?_⟩
      have hc : n * perParam * (if train = none then 1 else 0) = (if train = none then n else 0) * perParam := by
        split <;> simp
      simp only [Pairs.slice, List.length_drop, List.length_take, l1, l2, hc, Nat.min_self]
      rw [toGenerate, if_pos hv, Nat.add_mul]
      omega
  cases train with
  | none =>
    cases val with
    | none =>
      obtain rfl := Option.some.inj h
      refine ⟨fun _ hn => (hgen (by simpa [toGenerate] using hn)).1 rfl,
        fun _ hn => (hgen (by simpa [toGenerate] using hn)).2 rfl, fun t ht => by simp at ht, fun v hv => by simp at hv⟩
    | some v =>
      simp only at h
      obtain ⟨q, hq, rfl⟩ := Option.map_eq_some_iff.1 h
      refine ⟨fun _ hn => (hgen (by simpa [toGenerate] using hn)).1 rfl, fun hv => by simp at hv,
        fun t ht => by simp at ht, fun v' hv => ?_⟩
      obtain rfl := Option.some.inj hv
      exact ⟨q, rfl, prov _ _ hq⟩
  | some t =>
    simp only at h
    split at h
    · exact absurd h (by simp)
    rename_i p hp
    cases val with
    | none =>
      obtain rfl := Option.some.inj h
      refine ⟨fun ht => by simp at ht, fun _ hn => (hgen (by simpa [toGenerate] using hn)).2 rfl, fun t' ht => ?_,
        fun v hv => by simp at hv⟩
      obtain rfl := Option.some.inj ht
      exact ⟨p, rfl, prov _ _ hp⟩
    | some v =>
      simp only at h
      obtain ⟨q, hq, rfl⟩ := Option.map_eq_some_iff.1 h
      refine ⟨fun ht => by simp at ht, fun hv => by simp at hv, fun t' ht => ?_, fun v' hv => ?_⟩
      · obtain rfl := Option.some.inj ht
        exact ⟨p, rfl, prov _ _ hp⟩
      · obtain rfl := Option.some.inj hv
        exact ⟨q, rfl, prov _ _ hq⟩

/-- C65, availability: at least two samples are generated, statistics accept the data sets. Then the
training and the validation set exist. -/
theorem C65_succeeds (chain : List Step) (n nVal perParam d : Nat) (draw : Nat → Draw) (hp : perParam = 1 ∨ Plain chain)
    (h0 : perParam ≠ 0) (hr : Regular draw perParam d) (hk : 2 ≤ n + nVal)
    (hacc : ∀ x : Row, x.length = d → statistics chain [x] ≠ none) :
    ∃ t v, learn chain n nVal perParam none none draw = some ⟨some t, some v⟩ := by
  have hdraw : (List.replicate d (0 : ℝ)).length = d := by simp
  rcases generate_eq chain perParam d hp h0 with ⟨-, hno⟩ | ⟨w, φ, -, hgen⟩
  · exact absurd (hno _ hdraw) (hacc _ hdraw)
  · have hkk : toGenerate n nVal none none = n + nVal := by simp [toGenerate]
    have hg := hgen ((List.range (n + nVal)).map draw) (by
      intro h
      have := congrArg List.length h
      simp at this
      omega) (by
      intro e he
      obtain ⟨i, -, rfl⟩ := List.mem_map.1 he
      exact hr i)
    rw [learn]
    rw [generatedSets]
    simp only
    rw [hkk, if_neg (by omega), if_neg (by omega), hg]
    simp only [Option.map_some]
    exact ⟨_, _, rfl⟩

/-- A single sample cannot be generated: drawing the seed raises. -/
theorem C65_one_violated (chain : List Step) (perParam : Nat) (draw : Nat → Draw) :
    learn chain 1 0 perParam none none draw = none := by
  rw [learn]
  rw [generatedSets]
  simp [toGenerate]

/-- C65 fails for two data sets per parameter and statistics with squares: the data sets 2 and 3 of every
parameter become the rows (2, 3) and (4, 9), whereas the statistics of the first are (2, 4). -/
theorem C65_violated : ∃ (sets : Sets) (p : Pairs),
    learn [⟨.identity, 2, false, none⟩] 2 0 2 none none (fun i => ⟨[i], [[2], [3]]⟩) = some sets ∧
    sets.train = some p ∧ p.stats.rows = [[2, 3], [4, 9], [2, 3], [4, 9]] ∧
    statistics [⟨.identity, 2, false, none⟩] [[2]] = some ⟨2, [[2, 4]]⟩ := by
  have h1 : ∀ x y : ℝ, statistics [⟨.identity, 2, false, none⟩] [[x, y]] = some ⟨4, [[x, y, x ^ 2, y ^ 2]]⟩ := by
    intro x y
    simp [statistics, toArray, Step.apply, Kind.apply, rescale, expand, powers, List.range'_succ, colStack, power]
  refine ⟨⟨some ⟨[[0], [0], [1], [1]], ⟨2, [[2, 3], [4, 9], [2, 3], [4, 9]]⟩⟩, some ⟨[], ⟨2, []⟩⟩⟩, _, ?_, rfl, rfl, ?_⟩
  · have hd : ∀ i : Nat, drawStatistics [⟨.identity, 2, false, none⟩] ⟨[(i : ℝ)], [[2], [3]]⟩ = some ⟨4, [[2, 3, 4, 9]]⟩ := by
      intro i
      rw [drawStatistics]
      have : ([[2], [3]] : List Row).flatten = [2, 3] := rfl
      rw [this, h1]
      norm_num
    rw [learn]
    rw [generatedSets]
    have e0 := hd 0
    have e1 := hd 1
    push_cast at e0 e1
    simp [toGenerate, generate, List.range_succ, e0, e1, collect, reshape, Pairs.slice]
  · simp [statistics, toArray, Step.apply, Kind.apply, rescale, expand, powers, List.range'_succ, colStack, power]
    norm_num

/-- The hypotheses of `C65_partial` and `C65_succeeds` hold for polynomial statistics with one data set
per parameter, and for plain statistics with three. -/
example : (∃ t v, learn [⟨.identity, 3, true, none⟩] 5 3 1 none none (fun i => ⟨[i], [[i, 2 * i]]⟩) = some ⟨some t, some v⟩) ∧
    ∃ t v, learn [⟨.identity, 1, false, none⟩] 5 3 3 none none (fun i => ⟨[i], [[i], [i + 1], [i + 2]]⟩) = some ⟨some t, some v⟩ := by
  constructor
  · refine C65_succeeds _ 5 3 1 2 _ (.inl rfl) (by simp) (fun i => ⟨rfl, by simp⟩) (by simp) fun x hx => ?_
    simp [statistics, toArray, Step.apply, Kind.apply, rescale]
  · refine C65_succeeds _ 5 3 3 1 _ (.inr ?_) (by simp) (fun i => ⟨rfl, by simp⟩) (by simp) fun x hx => ?_
    · intro p hp
      simp at hp
      simp [hp]
    · simp [statistics, toArray, Step.apply, Kind.apply, rescale]

end Verif.Learning
