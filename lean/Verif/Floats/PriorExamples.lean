import Verif.Floats.Prior
import Verif.Site.Examples
/-
Graphs with many parameters for C191.
-/
namespace Verif.Floats

open Graph Site

/-- `n` parameters without inputs, and a simulator that takes all of them. -/
def starG (n : Nat) : G where
  kind _ := .cont
  parents v := if v = n then List.range n else []
  lt_of_parent {v p} h := by
    split at h
    · rename_i e; rw [e]; exact List.mem_range.1 h
    · simp at h
  hyper_leaf h := by cases h

theorem starG_leaf (n p : Nat) (h : p < n) : unfold (starG n) p = [p] := by
  rw [unfold_eq]
  have : (starG n).parents p = [] := by simp only [starG]; rw [if_neg (by omega)]
  rw [this]
  rfl

theorem starG_root (n : Nat) : (starG n).parents n = List.range n := by simp [starG]

theorem flatMap_self (l : List Nat) (f : Nat → List Nat) (h : ∀ p ∈ l, f p = [p]) : l.flatMap f = l := by
  induction l with
  | nil => rfl
  | cons a l ih => rw [List.flatMap_cons, h a (by simp), ih (fun p hp => h p (by simp [hp]))]; rfl

theorem starG_above (n : Nat) : above (starG n) [n] = List.range n := by
  simp only [above, List.flatMap_cons, List.flatMap_nil, List.append_nil, starG_root]
  exact flatMap_self _ _ fun p hp => starG_leaf n p (List.mem_range.1 hp)

theorem eraseDups_nodup (l : List Nat) (h : l.Nodup) : l.eraseDups = l := by
  rw [← fresh_none_eq_eraseDups]
  have : ∀ (l : List Nat) (vis : Nat → Bool), l.Nodup → (∀ v ∈ l, vis v = false) → Graph.fresh vis l = l := by
    intro l
    induction l with
    | nil => intros; rfl
    | cons a l ih =>
      intro vis hn hv
      rw [List.nodup_cons] at hn
      rw [Graph.fresh, if_neg (by simp [hv a (by simp)])]
      congr 1
      refine ih _ hn.2 ?_
      intro v hm
      have : v ≠ a := fun e => hn.1 (e ▸ hm)
      simp [this, hv v (by simp [hm])]
  exact this l _ h fun _ _ => rfl

theorem starG_order (n : Nat) : order (starG n) [n] = List.range n := by
  rw [order, starG_above, eraseDups_nodup _ List.nodup_range]
  simp [starG, Kind.isFree]

theorem starG_apart (n : Nat) : RootsApart (starG n) [n] := by
  intro r hr r' hr' h
  simp only [List.mem_singleton] at hr hr'
  subst hr hr'
  exact absurd h.lt (lt_irrefl _)

open Classical in
/-- The uniform density on the interval from 0 to 1024. -/
noncomputable def box (o : Option ℝ) : ℝ := match o with
  | some x => if 0 ≤ x ∧ x ≤ 1024 then 2⁻¹ ^ 10 else 0
  | none => 0

open Classical in
/-- `n` parameters, uniform on the interval from 0 to 1024, and a kernel that proposes `k` for all of them. -/
noncomputable def boxSite (n : Nat) : Site ℝ ℝ ℝ where
  g := starG n
  roots := [n]
  chk _ _ x := if 0 ≤ x ∧ x ≤ 1024 then .accept else .reject
  dens _ _ o := box o
  prior _ := ⟨fun _ _ _ => some 0, fun _ _ _ => true⟩
  tries := 1
  simulate _ vals c := (c + 1, ((List.range n).map fun v => (vals v).getD 0).sum)
  update k _ c := (c + 1, some ((List.range n).map fun v => (v, [k])))
  choice _ _ c := (c, 0)
  dist y := |y|
  distMax := none

theorem boxSite_sound (n : Nat) : Sound (boxSite n) where
  apart := starG_apart n
  direct r hr p hp := by simp [boxSite, starG]
  reads seed vals vals' c h := by
    have h' : ∀ p ∈ List.range n, vals p = vals' p := fun p hp => h n (by simp [boxSite]) p (by
      show p ∈ (starG n).parents n
      rw [starG_root]; exact hp)
    simp only [boxSite]
    rw [List.map_congr_left fun v hv => by rw [h' v hv]]
  kernel k seed c pairs h := by
    simp only [boxSite, Option.some.injEq] at h
    subst h
    have : order (boxSite n).g (boxSite n).roots = List.range n := starG_order n
    rw [this]
    simp [Function.comp_def]
  refused vals v x h := by
    by_cases hx : 0 ≤ x ∧ x ≤ 1024
    · simp [boxSite, hx] at h
    · simp only [boxSite, box, if_neg hx]

theorem box_nonneg (o : Option ℝ) : 0 ≤ box o ∧ box o ≤ 2⁻¹ ^ 10 := by
  unfold box
  split
  · split
    · exact ⟨by positivity, le_rfl⟩
    · exact ⟨le_rfl, by positivity⟩
  · exact ⟨le_rfl, by positivity⟩

theorem firstParams_range (k : ℝ) : ∀ (l : List Nat) (v : Nat), firstParams (l.map fun v => (v, [k])) v = if v ∈ l then [k] else [] := by
  intro l v
  induction l with
  | nil => rfl
  | cons a l ih =>
    rw [List.map_cons, firstParams]
    by_cases h : a = v
    · simp [h]
    · rw [if_neg h, ih]
      have : ¬ v = a := fun e => h e.symm
      simp [this]

theorem assign_box (n : Nat) (k : ℝ) (hk : 0 ≤ k ∧ k ≤ 1024) (val : Nat → Option ℝ) :
    ∃ val', assignInOrder (boxSite n).chk (List.replicate n k) (List.range n) 0 val = .ok (val', n) := by
  have : ∀ (L : List Nat) (i : Nat) (val : Nat → Option ℝ), i + L.length = n → ∃ val', assignInOrder (boxSite n).chk (List.replicate n k) L i val = .ok (val', n) := by
    intro L
    induction L with
    | nil => intro i val h; simp only [List.length_nil, Nat.add_zero] at h; subst h; exact ⟨val, rfl⟩
    | cons v L ih =>
      intro i val h
      rw [List.length_cons] at h
      have hc : (boxSite n).chk val v k = .accept := by simp only [boxSite]; rw [if_pos hk]
      obtain ⟨val', hv⟩ := ih (i + 1) (fun y => if y = v then some k else val y) (by omega)
      refine ⟨val', ?_⟩
      rw [assignInOrder, List.getElem?_replicate, if_pos (by omega)]
      simp only [hc]
      exact hv
  exact this _ 0 val (by simp)

/-- With 108 or more such parameters, and a proposal inside the box: with real numbers the loop accepts the first proposal; in floating point it never ends. -/
theorem C191_box_violated (n : Nat) (hn : 108 ≤ n) (k : ℝ) (hk : 0 ≤ k ∧ k ≤ 1024) (seed clock : Nat) :
    (∃ w, propose (boxSite n) k 1 ⟨seed, fresh fun _ => none, clock⟩ = some (w, List.replicate n k)) ∧
      ∀ fuel, proposeFl (boxSite n) (fun vals v o => ⟨(boxSite n).dens vals v o⟩) k fuel ⟨seed, fresh fun _ => none, clock⟩ = none := by
  have ho : order (boxSite n).g (boxSite n).roots = List.range n := starG_order n
  have hg := fresh_good (boxSite n) fun _ => none
  constructor
  · have hps : (((boxSite n).roots.flatMap (unfold (boxSite n).g)).eraseDups).flatMap (firstParams ((List.range n).map fun v => (v, [k]))) = List.replicate n k := by
      have : ((boxSite n).roots.flatMap (unfold (boxSite n).g)) = n :: List.range n := by
        show [n].flatMap (unfold (starG n)) = _
        rw [List.flatMap_cons, List.flatMap_nil, List.append_nil, unfold_eq, starG_root]
        rw [flatMap_self _ _ fun p hp => starG_leaf n p (List.mem_range.1 hp)]
      rw [this, eraseDups_nodup _ (by simp [List.nodup_range]), List.flatMap_cons, firstParams_range, if_neg (by simp), List.nil_append]
      have : ∀ l : List Nat, (∀ v ∈ l, v ∈ List.range n) → l.flatMap (firstParams ((List.range n).map fun v => (v, [k]))) = List.replicate l.length k := by
        intro l
        induction l with
        | nil => intro _; rfl
        | cons a l ih =>
          intro h
          rw [List.flatMap_cons, firstParams_range, if_pos (h a (by simp)), ih fun v hv => h v (by simp [hv])]
          rfl
      rw [this _ fun _ h => h, List.length_range]
    obtain ⟨val, ha⟩ := assign_box n k hk (fun _ => none)
    obtain ⟨s, h1, h2, h3⟩ := perturb_first (boxSite n) (starG_apart n) k ⟨seed, fresh fun _ => none, clock⟩ hg.clean _ (clock + 1) rfl _ hps val n (by rw [ho]; exact ha)
    obtain ⟨val', ha'⟩ := assign_box n k hk s.value
    obtain ⟨t, q1, q2, q3⟩ := set_ok (boxSite n) (starG_apart n) (List.replicate n k) s h3 val' n (by rw [ho]; exact ha')
    have hpdf := C07_prior_density_partial (boxSite n).g (boxSite n).roots (starG_apart n) s h3 (boxSite n).chk (boxSite n).dens (List.replicate n k)
      (by rw [q1, ho, List.length_range]) (by intro v hv; simp [boxSite, starG] at hv)
    have hpos : 0 < (((order (boxSite n).g (boxSite n).roots).zip (List.replicate n k)).map fun e => (boxSite n).dens (setParameters (boxSite n).g (boxSite n).chk (boxSite n).roots (List.replicate n k) s).1.value e.1 (some e.2)).prod := by
      refine List.prod_pos ?_
      intro a ha
      obtain ⟨e, he, rfl⟩ := List.mem_map.1 ha
      have : e.2 = k := List.eq_of_mem_replicate (List.of_mem_zip he).2
      simp only [boxSite, box, this]
      rw [if_pos hk]
      positivity
    rw [propose, h1]
    simp only
    generalize pdfOfPrior (boxSite n).g (boxSite n).chk (boxSite n).dens (boxSite n).roots (List.replicate n k) s = pr at hpdf
    obtain ⟨s', d⟩ := pr
    simp only at hpdf
    subst hpdf
    simp only
    rw [if_pos hpos.ne']
    exact ⟨_, rfl⟩
  · intro fuel
    refine C191_violated (boxSite n) (boxSite_sound n) (fun _ => none) _ (fun _ => 10) (by norm_num) (fun vals v x => box_nonneg x) ?_ k fuel _ hg
    rw [ho]
    simp
    omega

/-- The hypotheses of `C191_partial` are met with 107 such parameters: the exponents add up to 1070. -/
example : ∃ d, (pdfOfPrior (boxSite 107).g (boxSite 107).chk (fun vals v o => ⟨(boxSite 107).dens vals v o⟩ : (Nat → Option ℝ) → Nat → Option ℝ → Fl) (boxSite 107).roots (List.replicate 107 512) (fresh fun _ => none)).2 = some d ∧ d.val ≠ 0 := by
  have ho : order (boxSite 107).g (boxSite 107).roots = List.range 107 := starG_order 107
  obtain ⟨val', ha'⟩ := assign_box 107 512 (by norm_num) (fun _ => none)
  obtain ⟨t, q1, q2, q3⟩ := set_ok (boxSite 107) (starG_apart 107) (List.replicate 107 512) (fresh fun _ => none) (fun _ => rfl) val' 107 (by rw [ho]; exact ha')
  obtain ⟨d, h1, h2⟩ := C191_partial (boxSite 107).g (boxSite 107).roots (starG_apart 107) (fresh fun _ => none) (fun _ => rfl) (boxSite 107).chk (fun vals v o => ⟨(boxSite 107).dens vals v o⟩) (List.replicate 107 512)
    (by rw [q1, ho, List.length_range]) (by intro v hv; simp [boxSite, starG] at hv) (fun _ => 10) (by
      intro e he
      have : e.2 = 512 := List.eq_of_mem_replicate (List.of_mem_zip he).2
      simp only [boxSite, box, this]
      rw [if_pos (by norm_num)]) (by rw [ho]; simp)
  exact ⟨d, h1, (lt_of_lt_of_le (by positivity) h2).ne'⟩

end Verif.Floats
