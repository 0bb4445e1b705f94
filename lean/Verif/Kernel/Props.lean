import Verif.Kernel.Model
import Verif.Graph.Props
import Mathlib.Data.List.Chain
import Mathlib.Tactic.FieldSimp
import Mathlib.Tactic.Ring
/-
Property theorems C10 and C24 - C29.
-/
namespace Verif.Kernel

open Verif.Graph

variable {α M Ω : Type}

/-! ### C24 -/

theorem check_inner (ms : List Nat) (acc : List Nat × Bool) :
    ((ms.foldl (fun acc m => if acc.1.any (· == m) then (acc.1, false) else (acc.1 ++ [m], acc.2)) acc).2 = true →
      (ms.foldl (fun acc m => if acc.1.any (· == m) then (acc.1, false) else (acc.1 ++ [m], acc.2)) acc).1 = acc.1 ++ ms) ∧
    (acc.1.Nodup → ((ms.foldl (fun acc m => if acc.1.any (· == m) then (acc.1, false) else (acc.1 ++ [m], acc.2)) acc).2 = true ↔
      acc.2 = true ∧ (acc.1 ++ ms).Nodup)) := by
  induction ms generalizing acc with
  | nil => simp; tauto
  | cons m ms ih =>
    rw [List.foldl_cons]
    by_cases hm : m ∈ acc.1
    · have hany : acc.1.any (· == m) = true := by simpa using hm
      rw [if_pos hany]
      have hfalse : ∀ (ms : List Nat) (a : List Nat), (ms.foldl (fun (acc : List Nat × Bool) m =>
          if acc.1.any (· == m) then (acc.1, false) else (acc.1 ++ [m], acc.2)) (a, false)).2 = false := by
        intro ms
        induction ms with
        | nil => intro a; rfl
        | cons x xs ihx => intro a; rw [List.foldl_cons]; split <;> exact ihx _
      rw [hfalse]
      refine ⟨by simp, fun _ => ?_⟩
      constructor
      · simp
      · rintro ⟨-, h⟩
        rw [List.nodup_append] at h
        exact absurd rfl (h.2.2 m hm m (by simp))
    · have hany : ¬ acc.1.any (· == m) = true := by simpa using hm
      rw [if_neg hany]
      obtain ⟨h1, h2⟩ := ih (acc.1 ++ [m], acc.2)
      refine ⟨fun h => by rw [h1 h]; simp, fun hnd => ?_⟩
      rw [h2 (by
        rw [List.nodup_append]
        exact ⟨hnd, by simp, fun a ha b hb => by simp only [List.mem_singleton] at hb; rintro rfl; exact hm (hb ▸ ha)⟩)]
      simp

/-- C24. Building a joint kernel succeeds exactly when no model occurs twice, in two kernels or in one. -/
theorem C24_check_kernels (kernels : List (Kern α Ω M)) :
    checkKernels kernels = true ↔ (kernels.flatMap Kern.models).Nodup := by
  unfold checkKernels
  have key : ∀ (ks : List (Kern α Ω M)) (acc : List Nat × Bool), acc.1.Nodup →
      ((ks.foldl (fun (acc : List Nat × Bool) k =>
        k.models.foldl (fun acc m => if acc.1.any (· == m) then (acc.1, false) else (acc.1 ++ [m], acc.2)) acc) acc).2 = true ↔
      acc.2 = true ∧ (acc.1 ++ ks.flatMap Kern.models).Nodup) := by
    intro ks
    induction ks with
    | nil => intro acc h; simp [h]
    | cons k ks ih =>
      intro acc hnd
      rw [List.foldl_cons]
      obtain ⟨h1, h2⟩ := check_inner k.models acc
      specialize h2 hnd
      rw [List.flatMap_cons, ← List.append_assoc]
      by_cases hb : (k.models.foldl (fun acc m => if acc.1.any (· == m) then (acc.1, false) else (acc.1 ++ [m], acc.2)) acc).2 = true
      · have hn := h2.1 hb
        rw [ih _ (by rw [h1 hb]; exact hn.2), h1 hb]
        rw [hb]; simp only [true_and, hn.1]
      · have hfalse : ∀ (ks : List (Kern α Ω M)) (a : List Nat × Bool), a.2 = false → (ks.foldl (fun (acc : List Nat × Bool) k =>
            k.models.foldl (fun acc m => if acc.1.any (· == m) then (acc.1, false) else (acc.1 ++ [m], acc.2)) acc) a).2 = false := by
          have hin : ∀ (ms : List Nat) (a : List Nat × Bool), a.2 = false → (ms.foldl (fun (acc : List Nat × Bool) m =>
              if acc.1.any (· == m) then (acc.1, false) else (acc.1 ++ [m], acc.2)) a).2 = false := by
            intro ms
            induction ms with
            | nil => intro a h; exact h
            | cons x xs ihx => intro a h; rw [List.foldl_cons]; apply ihx; split <;> simp [h]
          intro ks
          induction ks with
          | nil => intro a h; exact h
          | cons k ks ihk => intro a h; rw [List.foldl_cons]; exact ihk _ (hin _ _ h)
        rw [hfalse _ _ (by simpa using hb)]
        constructor
        · simp
        · rintro ⟨ha, hn⟩
          exact absurd (h2.2 ⟨ha, hn.sublist (List.sublist_append_left _ _)⟩) hb
  rw [key _ _ (by simp)]
  simp

example : checkKernels [(⟨[4, 1], fun _ _ => [], fun _ _ => 1⟩ : Kern Int Unit Int), ⟨[2], fun _ _ => [], fun _ _ => 1⟩] = true ∧
    checkKernels [(⟨[4, 1], fun _ _ => [], fun _ _ => 1⟩ : Kern Int Unit Int), ⟨[1], fun _ _ => [], fun _ _ => 1⟩] = false := by
  decide

/-! ### C10 -/

/-- The tables the inference schemes hand to the kernels: `kernel_parameters.append(get_accepted_parameters_bds_values(
kernel.models))` for every kernel (e.g. inferences.py 862-866). -/
def kernelTables (g : G) (roots : List Nat) (s : St α) (rows : List (List α)) (kernels : List (Kern α Ω M)) :
    List (List (List (Option α))) :=
  kernels.map fun k => (acceptedValues g roots s k.models rows).2

theorem pairUp_spec (ms : List Nat) (drawn : List α) (i : Nat) (out : List (Nat × List α))
    (h : pairUp ms drawn i = some out) :
    out.map Prod.fst = ms ∧ (∀ (j m : Nat), ms[j]? = some m → ∃ x, drawn[i + j]? = some x ∧ (m, [x]) ∈ out) ∧
      ∀ e ∈ out, ∃ x, e.2 = [x] := by
  induction ms generalizing i out with
  | nil => unfold pairUp at h; simp only [Option.some.injEq] at h; subst h; simp
  | cons m ms ih =>
    unfold pairUp at h
    cases hd : drawn[i]? with
    | none => simp [hd] at h
    | some x =>
      cases hr : pairUp ms drawn (i + 1) with
      | none => simp [hd, hr] at h
      | some rest =>
        simp only [hd, hr, Option.some.injEq] at h
        subst h
        obtain ⟨h1, h2, h3⟩ := ih (i + 1) rest hr
        refine ⟨by simp [h1], ?_, ?_⟩
        · intro j m' hj
          cases j with
          | zero => simp only [List.getElem?_cons_zero, Option.some.injEq] at hj; subst hj; exact ⟨x, hd, by simp⟩
          | succ j =>
            obtain ⟨y, hy, hm⟩ := h2 j m' (by simpa using hj)
            exact ⟨y, by rw [← hy]; congr 1; omega, by simp [hm]⟩
        · intro e he
          rcases List.mem_cons.1 he with rfl | he
          · exact ⟨x, rfl⟩
          · exact h3 e he

theorem jointUpdate_spec (tables : List (List (List (Option α)))) (row : Nat) (ω : Nat → Ω)
    (ks : List (Kern α Ω M)) (i : Nat) (out : List (Nat × List α)) (h : jointUpdate tables row ω ks i = some out) :
    out.map Prod.fst = ks.flatMap Kern.models ∧ (∀ e ∈ out, ∃ x, e.2 = [x]) ∧
    ∀ (n : Nat) (k : Kern α Ω M), ks[n]? = some k → ∃ t current, tables[i + n]? = some t ∧ t[row]? = some current ∧
      ∀ (j m : Nat), k.models[j]? = some m → ∃ x, (k.update current (ω (i + n)))[j]? = some x ∧ (m, [x]) ∈ out := by
  induction ks generalizing i out with
  | nil => simp only [jointUpdate, Option.some.injEq] at h; subst h; simp
  | cons k ks ih =>
    simp only [jointUpdate] at h
    cases ht : tables[i]? with
    | none => simp [ht] at h
    | some t =>
      cases hc : t[row]? with
      | none => simp [ht, hc] at h
      | some current =>
        cases hp : pairUp k.models (k.update current (ω i)) 0 with
        | none => simp [ht, hc, hp] at h
        | some a =>
          cases hb : jointUpdate tables row ω ks (i + 1) with
          | none => simp [ht, hc, hp, hb] at h
          | some b =>
            simp only [ht, hc, hp, hb, Option.some.injEq] at h
            subst h
            obtain ⟨p1, p2, p3⟩ := pairUp_spec _ _ _ _ hp
            obtain ⟨q1, q2, q3⟩ := ih (i + 1) b hb
            refine ⟨by simp [p1, q1], ?_, ?_⟩
            · intro e he
              rcases List.mem_append.1 he with he | he
              · exact p3 e he
              · exact q2 e he
            · intro n k' hk
              cases n with
              | zero =>
                simp only [List.getElem?_cons_zero, Option.some.injEq] at hk
                subst hk
                refine ⟨t, current, ht, hc, fun j m hj => ?_⟩
                obtain ⟨x, h1, h2⟩ := p2 j m hj
                exact ⟨x, by simpa using h1, by simp [h2]⟩
              | succ n =>
                obtain ⟨t', c', h1, h2, h3⟩ := q3 n k' (by simpa using hk)
                rw [show i + 1 + n = i + (n + 1) by omega] at h1 h3
                refine ⟨t', c', h1, h2, fun j m hj => ?_⟩
                obtain ⟨x, h4, h5⟩ := h3 j m hj
                exact ⟨x, h4, by simp [h5]⟩

theorem lookup_mem {β : Type} {l : List (Nat × β)} {v : Nat} {p : β} (h : l.lookup v = some p) : (v, p) ∈ l := by
  induction l with
  | nil => simp at h
  | cons e l ih =>
    obtain ⟨a, b⟩ := e
    rw [List.lookup_cons] at h
    by_cases ha : v = a
    · subst ha
      simp only [beq_self_eq_true, Option.some.injEq] at h
      subst h
      simp
    · have : (v == a) = false := by simpa using ha
      simp only [this] at h
      exact List.mem_cons_of_mem _ (ih h)

theorem flatMap_singletons {β : Type} (L : List Nat) (f : Nat → List β) (h1 : ∀ v ∈ L, (f v).length ≤ 1)
    (h2 : L.length ≤ (L.flatMap f).length) : ∀ (c v : Nat), L[c]? = some v → ∃ x, f v = [x] ∧ (L.flatMap f)[c]? = some x := by
  have hle : ∀ L : List Nat, (∀ v ∈ L, (f v).length ≤ 1) → (L.flatMap f).length ≤ L.length := by
    intro L
    induction L with
    | nil => simp
    | cons v L ih =>
      intro h
      have := h v (by simp)
      have := ih fun w hw => h w (by simp [hw])
      simp only [List.flatMap_cons, List.length_append, List.length_cons]
      omega
  induction L with
  | nil => simp
  | cons v L ih =>
    intro c w hc
    have hv := h1 v (by simp)
    have hL := hle L fun w hw => h1 w (by simp [hw])
    simp only [List.flatMap_cons, List.length_append, List.length_cons] at h2
    have hv1 : (f v).length = 1 := by omega
    obtain ⟨x, hx⟩ := List.length_eq_one_iff.1 hv1
    cases c with
    | zero => simp only [List.getElem?_cons_zero, Option.some.injEq] at hc; subst hc; exact ⟨x, hx, by simp [hx]⟩
    | succ c =>
      obtain ⟨y, h3, h4⟩ := ih (fun w hw => h1 w (by simp [hw])) (by omega) c w (by simpa using hc)
      exact ⟨y, h3, by rw [List.flatMap_cons, hx]; simpa using h4⟩

theorem kernelTables_get (g : G) (roots : List Nat) (hap : RootsApart g roots) (s : St α) (hs : Clean s)
    (rows : List (List α)) (kernels : List (Kern α Ω M)) (hin : ∀ k ∈ kernels, ∀ m ∈ k.models, m ∈ order g roots)
    (n row : Nat) (r : List α) (hr : rows[row]? = some r) (k : Kern α Ω M) (hk : kernels[n]? = some k)
    (t : List (List (Option α))) (cur : List (Option α)) (ht : (kernelTables g roots s rows kernels)[n]? = some t)
    (hc : t[row]? = some cur) : cur = k.models.map fun m => r[(order g roots).idxOf m]? := by
  simp only [kernelTables, List.getElem?_map, hk, Option.map_some, Option.some.injEq] at ht
  subst ht
  simp only [acceptedValues, (mgetMapping_eq g roots hap s hs).1] at hc
  rw [List.getElem?_map, hr, Option.map_some, Option.some.injEq] at hc
  rw [← hc]
  have hm : ∀ m ∈ k.models, m ∈ order g roots := hin k (List.mem_of_getElem? hk)
  have hone : ∀ (l : List Nat) (j v : Nat), l.Nodup → v ∈ l →
      ((l.zipIdx j).filter fun e => e.1 == v) = [(v, j + l.idxOf v)] := by
    intro l
    induction l with
    | nil => simp
    | cons a l ih =>
      intro j v hnd hv
      rw [List.zipIdx_cons, List.filter_cons]
      rw [List.nodup_cons] at hnd
      by_cases hav : a = v
      · subst hav
        have : (l.zipIdx (j + 1)).filter (fun e => e.1 == a) = [] := by
          rw [List.filter_eq_nil_iff]
          rintro ⟨b, i⟩ hb
          have := List.fst_mem_of_mem_zipIdx hb
          simp only [beq_iff_eq]
          rintro rfl
          exact hnd.1 this
        simp [this]
      · have hv' : v ∈ l := by simpa [Ne.symm hav] using hv
        simp only [beq_iff_eq, hav, if_false]
        rw [ih (j + 1) v hnd.2 hv', List.idxOf_cons]
        have : (a == v) = false := by simpa using hav
        simp [this]; omega
  clear hc
  have : ∀ l : List Nat, (∀ m ∈ l, m ∈ order g roots) → (l.flatMap fun v =>
      (((order g roots).zipIdx).filter fun e => e.1 == v).map fun e => r[e.2]?) = l.map fun m => r[(order g roots).idxOf m]? := by
    intro l
    induction l with
    | nil => simp
    | cons a l ih =>
      intro hl
      rw [List.flatMap_cons, hone _ 0 a (order_nodup g roots) (hl a (by simp)), ih fun m hm => hl m (by simp [hm])]
      simp
  exact this _ hm

/-- C10. Take a joint kernel that could be built, over free parameters of the graph, tables of current values made from the
stored particles, and any row `row` of them. If the update returns and `set_parameters` accepts the re-ordered result, then
the j-th model of every kernel stores the j-th value that this kernel drew, from the current values of its own models in
that row; and every free parameter is perturbed by some kernel. -/
theorem C10_kernel_values_arrive (g : G) (roots : List Nat) (hap : RootsApart g roots) (s : St α) (hs : Clean s)
    (chk : (Nat → Option α) → Nat → α → Verdict) (kernels : List (Kern α Ω M)) (hck : checkKernels kernels = true)
    (hin : ∀ k ∈ kernels, ∀ m ∈ k.models, m ∈ order g roots) (rows : List (List α)) (row : Nat) (r : List α)
    (hr : rows[row]? = some r) (ω : Nat → Ω) (pairs : List (Nat × List α))
    (hup : jointUpdate (kernelTables g roots s rows kernels) row ω kernels 0 = some pairs) (n : Nat)
    (hacc : (setParameters g chk roots (correctOrdering g roots pairs s).2 (correctOrdering g roots pairs s).1).2 = .ok n) :
    (∀ (i : Nat) (k : Kern α Ω M), kernels[i]? = some k → ∀ (j m : Nat), k.models[j]? = some m →
      ∃ x, (k.update (k.models.map fun m => r[(order g roots).idxOf m]?) (ω i))[j]? = some x ∧
        (setParameters g chk roots (correctOrdering g roots pairs s).2 (correctOrdering g roots pairs s).1).1.value m = some x) ∧
    ∀ v ∈ order g roots, ∃ k ∈ kernels, v ∈ k.models := by
  obtain ⟨u1, u2, u3⟩ := jointUpdate_spec _ _ _ _ _ _ hup
  have hnd : (pairs.map Prod.fst).Nodup := by rw [u1]; exact (C24_check_kernels kernels).1 hck
  have hpin : ∀ e ∈ pairs, e.1 ∈ order g roots := by
    intro e he
    have : e.1 ∈ kernels.flatMap Kern.models := by rw [← u1]; exact List.mem_map.2 ⟨e, he, rfl⟩
    obtain ⟨k, hk, hm⟩ := List.mem_flatMap.1 this
    exact hin k hk _ hm
  obtain ⟨o1, o2, -⟩ := C09_ordering g roots hap s hs pairs hnd hpin
  have hcl := (correctOrdering_eq g pairs roots s hs).2.1
  have key := setParameters_eq g chk (correctOrdering g roots pairs s).2 roots hap _ hcl
  cases ha : assignInOrder chk (correctOrdering g roots pairs s).2 (order g roots) 0 (correctOrdering g roots pairs s).1.value with
  | error e =>
    rw [ha] at key
    rcases e with ⟨_ | _, val⟩
    · simp only [hacc] at key; exact absurd key.1 (by simp)
    · simp only [hacc] at key; exact absurd key.1 (by simp)
  | ok res =>
    obtain ⟨val, n'⟩ := res
    rw [ha] at key
    simp only at key
    obtain ⟨-, hval, -⟩ := key
    obtain ⟨a1, a2, a3, -⟩ := assign_ok chk _ (order g roots) 0 _ val n' (order_nodup g roots) ha
    have hlen : (order g roots).length ≤ (correctOrdering g roots pairs s).2.length := by
      have := a2 (Nat.zero_le _); omega
    have hlk : ∀ v ∈ order g roots, ((pairs.lookup v).getD []).length ≤ 1 := by
      intro v _
      cases hl : pairs.lookup v with
      | none => simp
      | some p =>
        obtain ⟨x, hx⟩ := u2 (v, p) (lookup_mem hl)
        simp only at hx
        simp [hx]
    rw [o1] at hlen
    have hsing := flatMap_singletons (order g roots) (fun v => (pairs.lookup v).getD []) hlk hlen
    have hvals : ∀ v ∈ order g roots, ∃ x, (pairs.lookup v).getD [] = [x] ∧ val v = some x := by
      intro v hv
      obtain ⟨c, hc⟩ := List.mem_iff_getElem?.1 hv
      obtain ⟨x, hx, hxc⟩ := hsing c v hc
      refine ⟨x, hx, ?_⟩
      have hcl := (List.getElem?_eq_some_iff.1 hc).1
      have := congrArg (fun l : List (Option α) => l[c]?) a3
      simp only [List.getElem?_map, hc, Option.map_some, List.drop_zero] at this
      rw [List.getElem?_take, if_pos hcl, o1, hxc] at this
      simpa using this
    rw [hval]
    constructor
    · intro i k hk j m hj
      obtain ⟨t, cur, t1, t2, t3⟩ := u3 i k hk
      rw [Nat.zero_add] at t1 t3
      obtain rfl := kernelTables_get g roots hap s hs rows kernels hin i row r hr k hk t cur t1 t2
      obtain ⟨x, x1, x2⟩ := t3 j m hj
      refine ⟨x, x1, ?_⟩
      obtain ⟨y, y1, y2⟩ := hvals m (hin k (List.mem_of_getElem? hk) m (List.mem_of_getElem? hj))
      rw [o2 m [x] x2] at y1
      simp only [List.cons.injEq, and_true] at y1
      rw [y2, y1]
    · intro v hv
      obtain ⟨x, hx, -⟩ := hvals v hv
      have : v ∈ pairs.map Prod.fst := by
        by_contra hno
        rw [← firstParams_eq_lookup, firstParams_eq_nil pairs hno] at hx
        simp at hx
      rw [u1] at this
      obtain ⟨k, hk, hm⟩ := List.mem_flatMap.1 this
      exact ⟨k, hk, hm⟩

/-- Two kernels over `exG` (order 4, 1, 2), the first with its models in another order: an update that is accepted. -/
def exKernels : List (Kern Int Int Int) :=
  [⟨[2, 4], fun cur d => cur.map fun x => x.getD 0 + d, fun _ _ => 1⟩, ⟨[1], fun cur d => cur.map fun x => x.getD 0 * d, fun _ _ => 1⟩]

example : checkKernels exKernels = true ∧ (∀ k ∈ exKernels, ∀ m ∈ k.models, m ∈ order exG [5, 6]) ∧
    jointUpdate (kernelTables exG [5, 6] St.blank [[10, 20, 30]] exKernels) 0 (fun i => (i : Int) + 5) exKernels 0 =
      some [(2, [35]), (4, [15]), (1, [120])] := by
  refine ⟨by decide, by rw [exG_order]; decide, ?_⟩
  have e : kernelTables exG [5, 6] (St.blank : St Int) [[10, 20, 30]] exKernels = [[[some 30, some 10]], [[some 20]]] := by
    simp only [kernelTables, exKernels, acceptedValues, (mgetMapping_eq exG [5, 6] exG_apart (St.blank : St Int) blank_clean).1, exG_order]
    decide
  rw [e]
  decide

/-! ### C25 -/

theorem pick_spec (g : G) (roots : List Nat) (v : List α) (hv : (order g roots).length ≤ v.length) (models : List Nat)
    (hm : ∀ m ∈ models, m ∈ order g roots) :
    ∃ l : List α, pick (order g roots).zipIdx v models = some l ∧
      l.map some = models.map fun m => v[(order g roots).idxOf m]? := by
  induction models with
  | nil => exact ⟨[], rfl, rfl⟩
  | cons m ms ih =>
    obtain ⟨l, h1, h2⟩ := ih fun x hx => hm x (by simp [hx])
    have hone : ∀ (l : List Nat) (j v : Nat), l.Nodup → v ∈ l →
        ((l.zipIdx j).filter fun e => v == e.1) = [(v, j + l.idxOf v)] := by
      intro l
      induction l with
      | nil => simp
      | cons a l ih =>
        intro j v hnd hv
        rw [List.zipIdx_cons, List.filter_cons]
        rw [List.nodup_cons] at hnd
        by_cases hav : a = v
        · subst hav
          have : (l.zipIdx (j + 1)).filter (fun e => a == e.1) = [] := by
            rw [List.filter_eq_nil_iff]
            rintro ⟨b, i⟩ hb
            have := List.fst_mem_of_mem_zipIdx hb
            simp only [beq_iff_eq]
            rintro rfl
            exact hnd.1 this
          simp [this]
        · have hv' : v ∈ l := by simpa [Ne.symm hav] using hv
          simp only [beq_iff_eq, Ne.symm hav, if_false]
          rw [ih (j + 1) v hnd.2 hv', List.idxOf_cons]
          have : (a == v) = false := by simpa using hav
          simp [this]; omega
    have hi : (order g roots).idxOf m < v.length := by
      have := List.idxOf_lt_length_of_mem (hm m (by simp)); omega
    refine ⟨v[(order g roots).idxOf m] :: l, ?_, ?_⟩
    · unfold pick at h1 ⊢
      rw [List.flatMap_cons, hone _ 0 m (order_nodup g roots) (hm m (by simp))]
      simp only [List.map_cons, List.map_nil, Nat.zero_add, List.cons_append, List.nil_append, List.foldr_cons, h1,
        List.getElem?_eq_getElem hi]
    · simp [h2, List.getElem?_eq_getElem hi]

/-- C25. With the mapping of the graph, the joint density is the product over the kernels of each kernel's density at the
components of its own models: `c k` and `t k` are the vectors made of the entries of `mean` and `x` at the positions of
the models of `k` in the parameter order. -/
theorem C25_joint_pdf [CommMonoid M] (g : G) (roots : List Nat) (hap : RootsApart g roots) (s : St α) (hs : Clean s)
    (kernels : List (Kern α Ω M)) (hin : ∀ k ∈ kernels, ∀ m ∈ k.models, m ∈ order g roots) (mean x : List α)
    (hmean : (order g roots).length ≤ mean.length) (hx : (order g roots).length ≤ x.length) :
    ∃ c t : Kern α Ω M → List α,
      (∀ k ∈ kernels, (c k).map some = k.models.map (fun m => mean[(order g roots).idxOf m]?) ∧
        (t k).map some = k.models.map (fun m => x[(order g roots).idxOf m]?)) ∧
      jointPdf (mgetMapping g roots s).2.1 mean x kernels = some ((kernels.map fun k => k.pdf (c k) (t k)).prod) := by
  have hmap : (mgetMapping g roots s).2.1 = (order g roots).zipIdx := by rw [(mgetMapping_eq g roots hap s hs).1]
  rw [hmap]
  let c := fun k : Kern α Ω M => (pick (order g roots).zipIdx mean k.models).getD []
  let t := fun k : Kern α Ω M => (pick (order g roots).zipIdx x k.models).getD []
  have hc : ∀ k ∈ kernels, pick (order g roots).zipIdx mean k.models = some (c k) ∧
      (c k).map some = k.models.map (fun m => mean[(order g roots).idxOf m]?) := by
    intro k hk
    obtain ⟨l, h1, h2⟩ := pick_spec g roots mean hmean k.models (hin k hk)
    have : c k = l := by simp [c, h1]
    rw [this]; exact ⟨h1, h2⟩
  have ht : ∀ k ∈ kernels, pick (order g roots).zipIdx x k.models = some (t k) ∧
      (t k).map some = k.models.map (fun m => x[(order g roots).idxOf m]?) := by
    intro k hk
    obtain ⟨l, h1, h2⟩ := pick_spec g roots x hx k.models (hin k hk)
    have : t k = l := by simp [t, h1]
    rw [this]; exact ⟨h1, h2⟩
  refine ⟨c, t, fun k hk => ⟨(hc k hk).2, (ht k hk).2⟩, ?_⟩
  unfold jointPdf
  have : ∀ (ks : List (Kern α Ω M)) (a : M), (∀ k ∈ ks, k ∈ kernels) →
      ks.foldl (fun acc k => match acc, pick (order g roots).zipIdx mean k.models, pick (order g roots).zipIdx x k.models with
        | some r, some mk, some th => some (r * k.pdf mk th)
        | _, _, _ => none) (some a) = some (a * (ks.map fun k => k.pdf (c k) (t k)).prod) := by
    intro ks
    induction ks with
    | nil => intro a _; simp
    | cons k ks ih =>
      intro a h
      rw [List.foldl_cons, (hc k (h k (by simp))).1, (ht k (h k (by simp))).1]
      simp only
      rw [ih _ fun k' hk' => h k' (by simp [hk'])]
      simp [mul_assoc]
  exact (this kernels 1 fun _ h => h).trans (by rw [one_mul])

example : ∀ k ∈ exKernels, ∀ m ∈ k.models, m ∈ order exG [5, 6] := by rw [exG_order]; decide

/-! ### C26 -/

theorem npSplit_spec {β : Type} (v : List β) (sizes : List Nat) (a : Nat) (h : a + sizes.sum = v.length) :
    (npSplit v a (cumsum a sizes)).dropLast.flatten = v.drop a ∧
    (npSplit v a (cumsum a sizes)).dropLast.map List.length = sizes ∧ npSplit v a (cumsum a sizes) ≠ [] := by
  induction sizes generalizing a with
  | nil =>
    simp only [List.sum_nil, Nat.add_zero] at h
    simp [cumsum, npSplit, h]
  | cons n ns ih =>
    simp only [List.sum_cons] at h
    obtain ⟨h1, h2, h3⟩ := ih (a + n) (by omega)
    simp only [cumsum, npSplit]
    rw [List.dropLast_cons_of_ne_nil h3]
    refine ⟨?_, ?_, by simp⟩
    · rw [List.flatten_cons, h1]
      have : v.drop a = (v.take (a + n)).drop a ++ v.drop (a + n) := by
        conv_lhs => rw [← List.take_append_drop (a + n) v]
        rw [List.drop_append_of_le_length (by simp; omega)]
      exact this.symm
    · rw [List.map_cons, h2]
      simp; omega

/-- C26. If the drawn vector has as many entries as all the current arrays together, the blocks returned concatenate to it
and have the sizes of the current arrays, one block per model. -/
theorem C26_blocks {β : Type} (sizes : List Nat) (drawn : List β) (h : drawn.length = sizes.sum) :
    (splitBlocks sizes drawn).flatten = drawn ∧ (splitBlocks sizes drawn).map List.length = sizes := by
  obtain ⟨h1, h2, -⟩ := npSplit_spec drawn sizes 0 (by omega)
  unfold splitBlocks
  exact ⟨by simpa using h1, h2⟩

example : splitBlocks [2, 0, 1] [7, 8, 9] = [[7, 8], [], [9]] := by decide

/-! ### C27 -/

theorem rw_mem (jump : Nat) (mean y : List Int) :
    y ∈ rwOutcomes jump mean ↔ List.Forall₂ (fun (m x : Int) => |x - m| ≤ jump) mean y := by
  induction mean generalizing y with
  | nil => simp [rwOutcomes, List.forall₂_nil_left_iff]
  | cons v vs ih =>
    simp only [rwOutcomes, List.mem_flatMap, List.mem_range, List.mem_map, List.forall₂_cons_left_iff]
    constructor
    · rintro ⟨i, hi, ys, hys, rfl⟩
      refine ⟨_, ys, ?_, (ih ys).1 hys, rfl⟩
      rw [abs_le]; omega
    · rintro ⟨x, ys, hx, hys, rfl⟩
      rw [abs_le] at hx
      exact ⟨(x - (v - jump)).toNat, by omega, ys, (ih ys).2 hys, by congr 1; omega⟩

theorem rw_nodup (jump : Nat) (mean : List Int) : (rwOutcomes jump mean).Nodup := by
  induction mean with
  | nil => simp [rwOutcomes]
  | cons v vs ih =>
    rw [rwOutcomes, List.nodup_flatMap]
    refine ⟨fun i _ => ih.map fun a b h => by simpa using h, ?_⟩
    refine List.nodup_range.imp ?_
    intro a b hab z hz1 hz2
    rw [List.mem_map] at hz1 hz2
    obtain ⟨_, _, rfl⟩ := hz1
    obtain ⟨_, _, h⟩ := hz2
    simp only [List.cons.injEq] at h
    omega

theorem rw_length (jump : Nat) (mean : List Int) : (rwOutcomes jump mean).length = (2 * jump + 1) ^ mean.length := by
  induction mean with
  | nil => rfl
  | cons v vs ih =>
    have e : ((v + jump + 1) - (v - jump)).toNat = 2 * jump + 1 := by omega
    rw [rwOutcomes, e, List.length_flatMap]
    simp [ih, List.length_cons, pow_succ]
    ring

/-- What C27 says, for every non-empty vector: the reachable vectors are exactly those at distance at most `jump` in each
component; `pmf` is defined on each of them, and the sum over all of them is `(2 jump + 1) ^ (d - 1)`, where `d` is
the number of components. For `d = 1` (one discrete parameter) this is one, as it should be.
Missing: `d ≥ 2`, where the sum is not one. -/
theorem C27_random_walk_partial (jump : Nat) (m : Int) (ms : List Int) :
    (∀ y, y ∈ rwOutcomes jump (m :: ms) ↔ List.Forall₂ (fun (m x : Int) => |x - m| ≤ jump) (m :: ms) y) ∧
    (rwOutcomes jump (m :: ms)).Nodup ∧
    ∃ p : List Int → ℚ, (∀ y ∈ rwOutcomes jump (m :: ms), rwPmf jump (m :: ms) y = some (p y)) ∧
      ((rwOutcomes jump (m :: ms)).map p).sum = (2 * jump + 1) ^ ms.length ∧
      (ms = [] → ((rwOutcomes jump (m :: ms)).map p).sum = 1) := by
  refine ⟨rw_mem jump _, rw_nodup jump _, fun _ => 1 / (2 * jump + 1), ?_, ?_, ?_⟩
  · intro y hy
    rw [rw_mem, List.forall₂_cons_left_iff] at hy
    obtain ⟨x, ys, hx, -, rfl⟩ := hy
    rw [abs_sub_comm] at hx
    simp only [rwPmf, List.head?_cons]
    rw [if_neg (by omega)]
  · have hne : (2 * (jump : ℚ) + 1) ≠ 0 := by positivity
    rw [List.map_const', List.sum_replicate, rw_length, List.length_cons]
    simp only [nsmul_eq_mul, Nat.cast_pow, Nat.cast_add, Nat.cast_mul, Nat.cast_ofNat, Nat.cast_one, pow_succ]
    field_simp
  · rintro rfl
    have hne : (2 * (jump : ℚ) + 1) ≠ 0 := by positivity
    rw [List.map_const', List.sum_replicate, rw_length]
    simp only [nsmul_eq_mul, Nat.cast_pow, Nat.cast_add, Nat.cast_mul, Nat.cast_ofNat, Nat.cast_one,
      List.length_cons, List.length_nil, Nat.zero_add, pow_one]
    field_simp

/-- C27 fails for two or more components: with any jump of at least one the probabilities of the reachable vectors sum to
more than one, and a vector that cannot be reached gets a positive probability. -/
theorem C27_random_walk_violated (jump : Nat) (hj : 0 < jump) (m1 m2 : Int) (ms : List Int) :
    (∃ p : List Int → ℚ, (∀ y ∈ rwOutcomes jump (m1 :: m2 :: ms), rwPmf jump (m1 :: m2 :: ms) y = some (p y)) ∧
      1 < ((rwOutcomes jump (m1 :: m2 :: ms)).map p).sum) ∧
    ∃ (y : List Int) (q : ℚ), y ∉ rwOutcomes jump (m1 :: m2 :: ms) ∧ rwPmf jump (m1 :: m2 :: ms) y = some q ∧ 0 < q := by
  constructor
  · obtain ⟨-, -, p, h1, h2, -⟩ := C27_random_walk_partial jump m1 (m2 :: ms)
    refine ⟨p, h1, ?_⟩
    rw [h2]
    have : (1 : ℚ) < 2 * jump + 1 := by
      have : (0 : ℚ) < jump := by exact_mod_cast hj
      linarith
    exact one_lt_pow₀ this (by simp)
  · refine ⟨m1 :: (m2 + jump + 1) :: ms, 1 / (2 * (jump : ℚ) + 1), ?_, ?_, ?_⟩
    · rw [rw_mem, List.forall₂_cons, List.forall₂_cons]
      rintro ⟨-, h, -⟩
      rw [abs_le] at h
      omega
    · simp [rwPmf]
    · have : (0 : ℚ) < 2 * (jump : ℚ) + 1 := by positivity
      exact one_div_pos.2 this

/-! ### C28 -/

/-- C28. For every list of models: what the default kernel gives to the normal kernel are the continuous models in their
order, what it gives to the random walk are all others in their order; no sub-kernel of the normal kind is empty, and
together the sub-kernels contain every model exactly as often as the list does. -/
theorem C28_default_kernel (kind : Nat → Kind) (models : List Nat) :
    (∀ sub ∈ defaultKernel kind models,
      sub = (true, models.filter fun m => decide (kind m = .cont)) ∨ sub = (false, models.filter fun m => decide (kind m ≠ .cont))) ∧
    ((defaultKernel kind models).flatMap Prod.snd).Perm models ∧
    ((defaultKernel kind models).map Prod.fst).Nodup := by
  have hc : ∀ (l acc : List Nat), l.foldl (fun acc m => if kind m = .cont then acc ++ [m] else acc) acc =
      acc ++ l.filter fun m => decide (kind m = .cont) := by
    intro l
    induction l with
    | nil => simp
    | cons a l ih =>
      intro acc
      rw [List.foldl_cons, ih]
      by_cases hk : kind a = .cont <;> simp [hk]
  have hd : ∀ (l acc : List Nat), l.foldl (fun acc m => if kind m = .cont then acc else acc ++ [m]) acc =
      acc ++ l.filter fun m => decide (kind m ≠ .cont) := by
    intro l
    induction l with
    | nil => simp
    | cons a l ih =>
      intro acc
      rw [List.foldl_cons, ih]
      by_cases hk : kind a = .cont <;> simp [hk]
  have hp : ((models.filter fun m => decide (kind m = .cont)) ++ models.filter fun m => decide (kind m ≠ .cont)).Perm models := by
    have := List.filter_append_perm (fun m => decide (kind m = .cont)) models
    simpa using this
  unfold defaultKernel
  simp only [hc, hd, List.nil_append]
  split
  · rename_i h
    rw [h, List.nil_append] at hp
    exact ⟨by simp, by simpa using hp, by simp⟩
  · split
    · rename_i h
      rw [h, List.append_nil] at hp
      exact ⟨by simp, by simpa using hp, by simp⟩
    · exact ⟨by simp, by simpa using hp, by simp⟩

example : defaultKernel (fun m => if m % 2 = 0 then .cont else .disc) [3, 4, 1, 2] = [(true, [4, 2]), (false, [3, 1])] := by
  decide

/-! ### C29 -/

/-- What one attempt of `perturb` does: order the proposed values, try to set them. -/
def attempt (g : G) (chk : (Nat → Option α) → Nat → α → Verdict) (roots : List Nat) (pairs : List (Nat × List α))
    (s : St α) : St α × Except SetFail Nat :=
  setParameters g chk roots (correctOrdering g roots pairs s).2 (correctOrdering g roots pairs s).1

/-- `Rejects n s t`: the first `n` proposals are all refused and lead from node state `s` to `t`. -/
inductive Rejects (g : G) (chk : (Nat → Option α) → Nat → α → Verdict) (roots : List Nat)
    (propose : Nat → Option (List (Nat × List α))) : Nat → St α → St α → Prop
  | zero (s) : Rejects g chk roots propose 0 s s
  | succ {n s t pairs i} : Rejects g chk roots propose n s t → propose n = some pairs →
      (attempt g chk roots pairs (resetFlags g roots t)).2 = .error (.rejected i) →
      Rejects g chk roots propose (n + 1) s (attempt g chk roots pairs (resetFlags g roots t)).1

theorem clean_reset (g : G) (roots : List Nat) (s : St α) (hs : Clean s) : Clean (resetFlags g roots s) :=
  resetFlags_clean g roots s fun v hv => by rw [hs v] at hv; simp at hv

theorem attempt_clean (g : G) (chk : (Nat → Option α) → Nat → α → Verdict) (roots : List Nat) (hap : RootsApart g roots)
    (pairs : List (Nat × List α)) (s : St α) (hs : Clean s) (h : (attempt g chk roots pairs s).2 ≠ .error .raised) :
    Clean (attempt g chk roots pairs s).1 := by
  have hcl := (correctOrdering_eq g pairs roots s hs).2.1
  have key := setParameters_eq g chk (correctOrdering g roots pairs s).2 roots hap _ hcl
  unfold attempt at h ⊢
  revert key
  split
  · exact fun key => key.2.2
  · exact fun key => key.2.2
  · exact fun key => absurd key.1 h

theorem rejects_clean (g : G) (chk : (Nat → Option α) → Nat → α → Verdict) (roots : List Nat) (hap : RootsApart g roots)
    (propose : Nat → Option (List (Nat × List α))) {n : Nat} {s t : St α} (h : Rejects g chk roots propose n s t)
    (hs : Clean s) : Clean t := by
  induction h with
  | zero => exact hs
  | succ _ _ h3 ih => exact attempt_clean g chk roots hap _ _ (clean_reset g roots _ (ih hs)) (by rw [h3]; simp)

/-- The loop, started after `e` refusals. -/
theorem loop_spec (g : G) (chk : (Nat → Option α) → Nat → α → Verdict) (roots : List Nat)
    (propose : Nat → Option (List (Nat × List α))) (s0 : St α) :
    ∀ fuel e last s, Rejects g chk roots propose e s0 s →
      (∃ n t pairs k, n < e + fuel ∧ e ≤ n ∧ Rejects g chk roots propose n s0 t ∧ propose n = some pairs ∧
        (attempt g chk roots pairs (resetFlags g roots t)).2 = .ok k ∧
        perturbLoop g chk roots propose fuel e last s = ((attempt g chk roots pairs (resetFlags g roots t)).1,
          some (n, some (correctOrdering g roots pairs (resetFlags g roots t)).2))) ∨
      (∃ t last', Rejects g chk roots propose (e + fuel) s0 t ∧ (fuel ≠ 0 → last' ≠ none) ∧ (fuel = 0 → last' = last) ∧
        perturbLoop g chk roots propose fuel e last s = (t, some (e + fuel, last'))) ∨
      (perturbLoop g chk roots propose fuel e last s).2 = none := by
  intro fuel
  induction fuel with
  | zero => intro e last s h; exact .inr (.inl ⟨s, last, h, by simp, by simp, rfl⟩)
  | succ fuel ih =>
    intro e last s h
    rw [perturbLoop]
    cases hp : propose e with
    | none => exact .inr (.inr rfl)
    | some pairs =>
      simp only
      rcases ha : attempt g chk roots pairs (resetFlags g roots s) with ⟨s', r⟩
      have ha' := ha
      unfold attempt at ha'
      rw [ha']
      cases r with
      | ok k =>
        refine .inl ⟨e, s, pairs, k, by omega, le_rfl, h, hp, by rw [ha], ?_⟩
        simp [ha]
      | error err =>
        cases err with
        | raised => exact .inr (.inr rfl)
        | rejected i =>
          have h' : Rejects g chk roots propose (e + 1) s0 s' := by
            have := Rejects.succ h hp (by rw [ha])
            rwa [ha] at this
          simp only
          rcases ih (e + 1) (some (correctOrdering g roots pairs (resetFlags g roots s)).2) s' h' with
            ⟨n, t, p, k, h1, h2, h3, h4, h5, h6⟩ | ⟨t, l, h1, h2, h3, h4⟩ | h1
          · exact .inl ⟨n, t, p, k, by omega, by omega, h3, h4, h5, h6⟩
          · refine .inr (.inl ⟨t, l, ?_, ?_, by simp, ?_⟩)
            · rw [show e + (fuel + 1) = e + 1 + fuel by omega]; exact h1
            · intro _
              by_cases hf : fuel = 0
              · rw [h3 hf]; simp
              · exact h2 hf
            · rw [h4, show e + 1 + fuel = e + (fuel + 1) by omega]
          · exact .inr (.inr h1)

/-- C29, when the first acceptable proposal comes within the allowed attempts and is not the eleventh: `perturb` returns `[True, theta]`,
theta is that proposal in parameter order, and afterwards `get_parameters` returns theta (its first entries, one per free parameter).
Missing: the eleventh proposal (`C29_eleventh_violated`) and no acceptance at all (`C29_exhausted`, `C29_exhausted_violated`), where the claim is false. -/
theorem C29_perturb_partial (g : G) (chk : (Nat → Option α) → Nat → α → Verdict) (roots : List Nat)
    (hap : RootsApart g roots) (propose : Nat → Option (List (Nat × List α))) (epochs : Nat) (s t : St α) (hs : Clean s)
    (n : Nat) (hn : n ≠ 10) (hne : n < epochs) (pairs : List (Nat × List α)) (k : Nat)
    (hrej : Rejects g chk roots propose n s t) (hprop : propose n = some pairs)
    (hacc : (attempt g chk roots pairs (resetFlags g roots t)).2 = .ok k) :
    (perturb g chk roots propose epochs s).2 = .yes (correctOrdering g roots pairs (resetFlags g roots t)).2 ∧
    (getParameters g roots (perturb g chk roots propose epochs s).1).2 =
      ((correctOrdering g roots pairs (resetFlags g roots t)).2.take k).map some ∧ k = (order g roots).length := by
  have huniq : ∀ {a : Nat} {u v : St α}, Rejects g chk roots propose a s u → Rejects g chk roots propose a s v → u = v := by
    intro a
    induction a with
    | zero => rintro u v ⟨⟩ ⟨⟩; rfl
    | succ a ih =>
      intro u v h1 h2
      cases h1 with
      | succ a1 a2 a3 =>
        cases h2 with
        | succ b1 b2 b3 =>
          rw [a2] at b2
          cases b2
          rw [ih a1 b1]
  have hprefix : ∀ {a : Nat} {u : St α}, Rejects g chk roots propose a s u → n < a → False := by
    intro a
    induction a with
    | zero => intro u _ h; omega
    | succ a ih =>
      intro u h hlt
      cases h with
      | succ a1 a2 a3 =>
        rcases Nat.lt_or_ge n a with h | h
        · exact ih a1 h
        · obtain rfl : n = a := by omega
          obtain rfl := huniq a1 hrej
          rw [hprop] at a2
          cases a2
          rw [hacc] at a3
          cases a3
  have hloop := loop_spec g chk roots propose s epochs 0 none s (.zero s)
  have hres : perturbLoop g chk roots propose epochs 0 none s = ((attempt g chk roots pairs (resetFlags g roots t)).1,
      some (n, some (correctOrdering g roots pairs (resetFlags g roots t)).2)) := by
    rcases hloop with ⟨n', t', p', k', h1, h2, h3, h4, h5, h6⟩ | ⟨t', l, h1, -, -, -⟩ | h1
    · rcases Nat.lt_trichotomy n n' with h | h | h
      · exact (hprefix h3 h).elim
      · subst h
        obtain rfl := huniq h3 hrej
        rw [hprop] at h4
        cases h4
        exact h6
      · exfalso
        -- the accepted proposal n' < n would have been a refusal
        have : ∀ {a : Nat} {u : St α}, Rejects g chk roots propose a s u → n' < a → False := by
          intro a
          induction a with
          | zero => intro u _ h; omega
          | succ a ih =>
            intro u h hlt
            cases h with
            | succ a1 a2 a3 =>
              rcases Nat.lt_or_ge n' a with h | h
              · exact ih a1 h
              · obtain rfl : n' = a := by omega
                obtain rfl := huniq a1 h3
                rw [h4] at a2
                cases a2
                rw [h5] at a3
                cases a3
        exact this hrej h
    · exact (hprefix h1 (by omega)).elim
    · exfalso
      -- the loop cannot raise before reaching the accepted proposal
      have key : ∀ d e u, e + d = n → Rejects g chk roots propose e s u → ∀ fuel last, d < fuel →
          (perturbLoop g chk roots propose fuel e last u).2 ≠ none := by
        intro d
        induction d with
        | zero =>
          intro e u he hu fuel last hf
          obtain rfl : e = n := by omega
          obtain rfl := huniq hu hrej
          obtain ⟨fuel, rfl⟩ : ∃ f, fuel = f + 1 := ⟨fuel - 1, by omega⟩
          rw [perturbLoop, hprop]
          simp only
          rcases ha : attempt g chk roots pairs (resetFlags g roots u) with ⟨s', r⟩
          have ha' := ha
          unfold attempt at ha'
          rw [ha'] ; rw [ha] at hacc
          simp only at hacc
          subst hacc
          simp
        | succ d ih =>
          intro e u he hu fuel last hf
          obtain ⟨fuel, rfl⟩ : ∃ f, fuel = f + 1 := ⟨fuel - 1, by omega⟩
          have hstep : ∀ {a : Nat} {w : St α}, Rejects g chk roots propose a s w → e < a →
              ∃ pr i, propose e = some pr ∧ (attempt g chk roots pr (resetFlags g roots u)).2 = .error (.rejected i) := by
            intro a
            induction a with
            | zero => intro w _ h; omega
            | succ a iha =>
              intro w h hlt
              cases h with
              | succ a1 a2 a3 =>
                rcases Nat.lt_or_ge e a with h | h
                · exact iha a1 h
                · obtain rfl : e = a := by omega
                  obtain rfl := huniq a1 hu
                  exact ⟨_, _, a2, a3⟩
          obtain ⟨pr, i, p1, p2⟩ := hstep hrej (by omega)
          rw [perturbLoop, p1]
          simp only
          have h' := Rejects.succ hu p1 p2
          rcases ha : attempt g chk roots pr (resetFlags g roots u) with ⟨s', r⟩
          rw [ha] at h' p2
          simp only at p2 h'
          subst p2
          unfold attempt at ha
          rw [ha]
          exact ih (e + 1) s' (by omega) h' fuel _ (by omega)
      exact key n 0 s (by omega) (.zero s) epochs none hne h1
  have hpert : perturb g chk roots propose epochs s = ((attempt g chk roots pairs (resetFlags g roots t)).1,
      .yes (correctOrdering g roots pairs (resetFlags g roots t)).2) := by
    unfold perturb
    rw [hres]
    simp only
    rw [if_neg (by omega)]
  rw [hpert]
  refine ⟨rfl, ?_⟩
  have hclt := clean_reset g roots t (rejects_clean g chk roots hap propose hrej hs)
  have hcl := (correctOrdering_eq g pairs roots _ hclt).2.1
  unfold attempt at hacc ⊢
  have c1 := C01_set_then_get g roots hap _ hcl chk _ k hacc
  refine ⟨c1.1, ?_⟩
  obtain ⟨-, -, free, f1, f2, f3⟩ := c1
  rw [← f3]
  exact ((List.perm_ext_iff_of_nodup f1 (order_nodup g roots)).2 fun v => by rw [f2 v, mem_order]).length_eq

/-- The support check of the examples below: the parameter may only be 0. -/
def onlyZero : (Nat → Option Int) → Nat → Int → Verdict := fun _ _ x => if x = 0 then .accept else .reject

theorem nested_apart : RootsApart nestedG [1] := by
  intro r hr r' hr' hanc
  simp only [List.mem_singleton] at hr hr'
  subst hr; subst hr'
  obtain ⟨w, hw⟩ := hanc.exists_parent
  match w with
  | 0 => simp [nestedG, G.ofTable] at hw
  | 1 => simp [nestedG, G.ofTable] at hw
  | w + 2 => simp [nestedG, G.ofTable] at hw

theorem nested_order : order nestedG [1] = [0] := by
  simp [order, above, unfold_eq, nestedG, G.ofTable, List.eraseDups_cons, Kind.isFree]

theorem nested_attempt (t : St Int) (ht : Clean t) (x : Int) :
    (correctOrdering nestedG [1] [(0, [x])] (resetFlags nestedG [1] t)).2 = [x] ∧
    (attempt nestedG onlyZero [1] [(0, [x])] (resetFlags nestedG [1] t)).2 =
      (if x = 0 then .ok 1 else .error (.rejected 0)) ∧
    Clean (attempt nestedG onlyZero [1] [(0, [x])] (resetFlags nestedG [1] t)).1 ∧
    (attempt nestedG onlyZero [1] [(0, [x])] (resetFlags nestedG [1] t)).1.value 0 = (if x = 0 then some 0 else t.value 0) := by
  have hclt := clean_reset nestedG [1] t ht
  have hc := correctOrdering_eq nestedG [(0, [x])] [1] _ hclt
  have ho := (C09_ordering nestedG [1] nested_apart _ hclt [(0, [x])] (by simp) (by rw [nested_order]; simp)).1
  rw [nested_order] at ho
  have ho' : (correctOrdering nestedG [1] [(0, [x])] (resetFlags nestedG [1] t)).2 = [x] := by rw [ho]; rfl
  refine ⟨ho', ?_⟩
  have key := setParameters_eq nestedG onlyZero [x] [1] nested_apart
    (correctOrdering nestedG [1] [(0, [x])] (resetFlags nestedG [1] t)).1 hc.2.1
  rw [nested_order] at key
  unfold attempt
  rw [ho']
  by_cases hx : x = 0
  · subst hx
    simp only [assignInOrder, List.getElem?_cons_zero, onlyZero, if_true] at key
    refine ⟨by simpa [onlyZero] using key.1, key.2.2, ?_⟩
    have := key.2.1
    rw [this]
    simp
  · simp only [assignInOrder, List.getElem?_cons_zero, onlyZero, hx, if_false] at key
    rw [if_neg hx, if_neg hx]
    refine ⟨key.1, key.2.2, ?_⟩
    have := key.2.1
    rw [this, hc.2.2, resetFlags_value]

/-- Refused proposals in a row. -/
theorem nested_loop (propose : Nat → Option (List (Nat × List Int))) :
    ∀ m rest e last t, Clean t → t.value 0 = none → (∀ i, e ≤ i → i < e + m → propose i = some [(0, [5])]) →
    ∃ t', Clean t' ∧ t'.value 0 = none ∧
      perturbLoop nestedG onlyZero [1] propose (m + rest) e last t =
        perturbLoop nestedG onlyZero [1] propose rest (e + m) (if m = 0 then last else some [5]) t' := by
  intro m
  induction m with
  | zero => intro rest e last t h1 h2 _; exact ⟨t, h1, h2, by simp⟩
  | succ m ih =>
    intro rest e last t h1 h2 hp
    obtain ⟨a1, a2, a3, a4⟩ := nested_attempt t h1 5
    rw [show m + 1 + rest = (m + rest) + 1 by omega, perturbLoop, hp e le_rfl (by omega)]
    simp only
    rcases ha : attempt nestedG onlyZero [1] [(0, [5])] (resetFlags nestedG [1] t) with ⟨s', r⟩
    rw [ha] at a2 a3 a4
    simp only [show ((5 : Int) = 0) = False by simp, if_false] at a2 a3 a4
    subst a2
    unfold attempt at ha
    rw [ha]
    simp only
    obtain ⟨t', b1, b2, b3⟩ := ih rest (e + 1) (some [5]) s' a3 (by rw [a4, h2]) fun i h h' => hp i (by omega) (by omega)
    refine ⟨t', b1, b2, ?_⟩
    rw [a1, b3, show e + 1 + m = e + (m + 1) by omega]
    simp

/-- C29, when all allowed proposals are refused: `perturb` leaves what the refusals left, and returns `[False]` if exactly ten attempts were allowed (the code compares with 10
instead of the limit), otherwise `[True, theta]`. -/
theorem C29_exhausted (g : G) (chk : (Nat → Option α) → Nat → α → Verdict) (roots : List Nat)
    (propose : Nat → Option (List (Nat × List α))) (epochs : Nat) (s t : St α) (hrej : Rejects g chk roots propose epochs s t) :
    (perturb g chk roots propose epochs s).1 = t ∧
    (epochs = 10 → (perturb g chk roots propose epochs s).2 = .no) ∧
    (epochs ≠ 10 → epochs ≠ 0 → ∃ ps, (perturb g chk roots propose epochs s).2 = .yes ps) := by
  have key : ∀ d e u, Rejects g chk roots propose e s u → Rejects g chk roots propose (e + d) s t → ∀ last,
      ∃ last', perturbLoop g chk roots propose d e last u = (t, some (e + d, last')) ∧ (d ≠ 0 → last' ≠ none) := by
    have huniq : ∀ {a : Nat} {u v : St α}, Rejects g chk roots propose a s u → Rejects g chk roots propose a s v → u = v := by
      intro a
      induction a with
      | zero => rintro u v ⟨⟩ ⟨⟩; rfl
      | succ a ih =>
        intro u v h1 h2
        cases h1 with
        | succ a1 a2 a3 =>
          cases h2 with
          | succ b1 b2 b3 =>
            rw [a2] at b2
            cases b2
            rw [ih a1 b1]
    have hpre : ∀ {a b : Nat} {v : St α}, Rejects g chk roots propose b s v → a ≤ b → ∃ u, Rejects g chk roots propose a s u := by
      intro a b
      induction b with
      | zero => intro v h hab; obtain rfl : a = 0 := by omega
                exact ⟨_, h⟩
      | succ b ih =>
        intro v h hab
        rcases Nat.lt_or_ge b a with h' | h'
        · obtain rfl : a = b + 1 := by omega
          exact ⟨_, h⟩
        · cases h with
          | succ a1 _ _ => exact ih a1 h'
    intro d
    induction d with
    | zero =>
      intro e u h1 h2 last
      obtain rfl := huniq h1 h2
      exact ⟨last, rfl, fun h => absurd rfl h⟩
    | succ d ih =>
      intro e u h1 h2 last
      obtain ⟨v, hv⟩ := hpre h2 (show e + 1 ≤ e + (d + 1) by omega)
      cases hv with
      | succ a1 a2 a3 =>
        obtain rfl := huniq a1 h1
        rename_i pairs i
        rw [perturbLoop, a2]
        simp only
        rcases ha : attempt g chk roots pairs (resetFlags g roots _) with ⟨s', r⟩
        rw [ha] at a3
        simp only at a3
        subst a3
        have hs' := Rejects.succ a1 a2 (by rw [ha])
        rw [ha] at hs'
        unfold attempt at ha
        rw [ha]
        simp only
        obtain ⟨l, e1, e2⟩ := ih (e + 1) s' hs' (by rw [show e + 1 + d = e + (d + 1) by omega]; exact h2) (some (correctOrdering g roots pairs (resetFlags g roots _)).2)
        refine ⟨l, by rw [e1, show e + 1 + d = e + (d + 1) by omega], fun _ => ?_⟩
        by_cases hd : d = 0
        · subst hd
          rw [perturbLoop] at e1
          simp only [Prod.mk.injEq, Option.some.injEq] at e1
          rw [← e1.2.2]
          simp
        · exact e2 hd
  obtain ⟨l, e1, e2⟩ := key epochs 0 s (.zero s) (by rw [Nat.zero_add]; exact hrej) none
  unfold perturb
  rw [e1]
  simp only [Nat.zero_add]
  refine ⟨by split <;> [rfl; (split <;> rfl)], fun h => by rw [if_pos h], fun h h0 => ?_⟩
  rw [if_neg h]
  cases l with
  | none => exact absurd rfl (e2 h0)
  | some ps => exact ⟨ps, rfl⟩

/-- C29 fails when every proposal is refused: with the default limit of 100 attempts, `perturb` returns `[True, theta]` for
the last refused theta. (Here: a graph with one parameter whose support is `{0}`; 5 is proposed again and again.) -/
theorem C29_exhausted_violated :
    (perturb nestedG onlyZero [1] (fun _ => some [(0, [5])]) 100 St.blank).2 = .yes [5] ∧
    (getParameters nestedG [1] (perturb nestedG onlyZero [1] (fun _ => some [(0, [5])]) 100 St.blank).1).2 ≠ [some 5] := by
  obtain ⟨t', b1, b2, b3⟩ := nested_loop (fun _ => some [(0, [5])]) 100 0 0 none (St.blank : St Int) blank_clean rfl
    (fun _ _ _ => rfl)
  have hp : perturb nestedG onlyZero [1] (fun _ => some [(0, [5])]) 100 (St.blank : St Int) = (t', .yes [5]) := by
    unfold perturb
    rw [show (100 : Nat) = 100 + 0 by rfl, b3]
    simp [perturbLoop]
  rw [hp]
  refine ⟨rfl, ?_⟩
  rw [(getParameters_eq nestedG [1] t' b1).1, nested_order]
  simp [b2]

/-- C29 fails when the first acceptable proposal is the eleventh: `perturb` returns `[False]` although the proposal was
accepted and is now stored in the model. -/
theorem C29_eleventh_violated :
    (perturb nestedG onlyZero [1] (fun i => some [(0, [if i < 10 then 5 else 0])]) 100 St.blank).2 = .no ∧
    (getParameters nestedG [1] (perturb nestedG onlyZero [1] (fun i => some [(0, [if i < 10 then 5 else 0])]) 100
      St.blank).1).2 = [some 0] := by
  obtain ⟨t', b1, b2, b3⟩ := nested_loop (fun i => some [(0, [if i < 10 then 5 else 0])]) 10 90 0 none (St.blank : St Int)
    blank_clean rfl (fun i _ h => by rw [if_pos (by omega)])
  obtain ⟨a1, a2, a3, a4⟩ := nested_attempt t' b1 0
  rcases ha : attempt nestedG onlyZero [1] [(0, [0])] (resetFlags nestedG [1] t') with ⟨s', r⟩
  rw [ha] at a2 a3 a4
  simp only [if_true] at a2 a3 a4
  subst a2
  unfold attempt at ha
  have hp : perturb nestedG onlyZero [1] (fun i => some [(0, [if i < 10 then 5 else 0])]) 100 (St.blank : St Int) = (s', .no) := by
    unfold perturb
    rw [show (100 : Nat) = 10 + 90 by rfl, b3, show (90 : Nat) = 89 + 1 by rfl, perturbLoop]
    simp only [show ¬ (0 + 10 < 10) by omega, if_false]
    rw [ha]
    simp
  rw [hp]
  refine ⟨rfl, ?_⟩
  rw [(getParameters_eq nestedG [1] s' a3).1, nested_order]
  simp [a4]

/-- The hypotheses of `C29_perturb_partial` can hold, after a refusal. -/
example : ∃ t : St Int, Rejects nestedG onlyZero [1] (fun i => some [(0, [if i < 1 then 5 else 0])]) 1 St.blank t ∧
    (attempt nestedG onlyZero [1] [(0, [0])] (resetFlags nestedG [1] t)).2 = .ok 1 := by
  obtain ⟨a1, a2, a3, a4⟩ := nested_attempt (St.blank : St Int) blank_clean 5
  refine ⟨_, .succ (.zero _) (pairs := [(0, [5])]) (i := 0) (by simp) a2, ?_⟩
  obtain ⟨b1, b2, b3, b4⟩ := nested_attempt _ a3 0
  exact b2

/-- The hypothesis of `C29_exhausted` can hold. -/
example : ∃ t : St Int, Rejects nestedG onlyZero [1] (fun _ => some [(0, [5])]) 2 St.blank t := by
  obtain ⟨a1, a2, a3, a4⟩ := nested_attempt (St.blank : St Int) blank_clean 5
  obtain ⟨b1, b2, b3, b4⟩ := nested_attempt _ a3 5
  exact ⟨_, .succ (.succ (.zero _) (pairs := [(0, [5])]) (i := 0) rfl a2) (pairs := [(0, [5])]) (i := 0) rfl b2⟩

end Verif.Kernel
