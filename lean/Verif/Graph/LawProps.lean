import Verif.Graph.Law
/-
C211: the probability with which `sample_from_prior` produces a parameter vector is the prior density that `pdf_of_prior` returns for it, for random variables with finitely
many outcomes of the random generator.
-/
namespace Verif.Graph

open Chance Filter Topology

variable {A α : Type} [DecidableEq α] (g : G)

omit [DecidableEq α] in
theorem assignInOrder_other (chk : (Nat → Option α) → Nat → α → Verdict) (ps : List α) (l : List Nat) (i : Nat) (val val' : Nat → Option α) (k : Nat)
    (h : assignInOrder chk ps l i val = .ok (val', k)) : ∀ y, y ∉ l → val' y = val y := by
  induction l generalizing i val with
  | nil => simp only [assignInOrder, Except.ok.injEq, Prod.mk.injEq] at h; intro y _; rw [h.1]
  | cons v l ih =>
    simp only [assignInOrder] at h
    intro y hy
    simp only [List.mem_cons, not_or] at hy
    split at h
    · cases h
    · split at h
      · cases h
      · cases h
      · rw [ih _ _ h y hy.2, if_neg hy.1]

omit [DecidableEq α] in
theorem zip_map_values (l : List Nat) (ps : List α) (τ : Nat → Option α) (hlen : ps.length = l.length) (h : ∀ i (hi : i < l.length), τ l[i] = ps[i]?)
    (F : Nat → Option α → ℝ) : ((l.zip ps).map fun e => F e.1 (some e.2)) = l.map fun v => F v (τ v) := by
  apply List.ext_getElem
  · simp [hlen]
  · intro i h1 h2
    simp only [List.length_map] at h2
    simp only [List.getElem_map, List.getElem_zip]
    rw [h i h2, List.getElem?_eq_getElem (by omega)]

/-- The event that a call of `sample_from_prior` with the given random numbers, which gives up after `m` attempts, returns and that `get_parameters` reads `ps` then. -/
def yields (V : Vars A α) (roots : List Nat) (s : Smp α) (m : Nat) (ps : List α) (stream : List A) : Bool :=
  (sampleFromPrior g (V.sim stream) roots m s).any fun s' => decide ((getParameters g roots s'.st).2 = ps.map some)

/-- C211, for graphs in which no discrete parameter is reached along two paths and no arithmetic node feeds a parameter. One attempt of `sample_from_prior` gets through
with a probability `S`. The probability that at most `m` attempts produce the parameter vector `ps` is the prior density of `ps` times `1 + (1 - S) + ... + (1 - S)^(m-1)`,
the sum over the attempts of the probability that the earlier ones failed. The density is the value that `pdf_of_prior` returns when every random variable reports the probability of
its value. The generator hands out independent numbers, `m` times the number of draws of an attempt are enough. -/
theorem C211_prior_law_partial [Nonempty α] (V : Vars A α) (hV : V.Proper g) (outcomes : List A) (q : A → ℝ) (hq : (outcomes.map q).sum = 1) (roots : List Nat)
    (hap : RootsApart g roots) (hop : ∀ v, g.kind v = .op → ∀ vals a, V.draw vals v a ≠ none)
    (hfeed : ∀ v, (g.kind v).isFree = true → (∃ r ∈ roots, Anc g v r) → ∀ p ∈ g.parents v, g.kind p ≠ .op)
    (hdisc : ∀ v, g.kind v = .disc → (above g roots).count v ≤ 1) (s : Smp α) (hs : Clean s.st) (hclock : s.clock = 0)
    (chk : (Nat → Option α) → Nat → α → Verdict) (ps : List α) (hlen : ps.length = (order g roots).length)
    (hok : (setParameters g chk roots ps s.st).2 = .ok (order g roots).length) :
    ∃ d S : ℝ, (pdfOfPrior g chk (V.chance outcomes q) roots ps s.st).2 = some d ∧
      (∀ N, (above g roots).length ≤ N → prob outcomes q N (fun w => (sampleFromPrior g (V.sim w) roots 1 s).isSome) = S) ∧
      ∀ m N, m * (above g roots).length ≤ N → prob outcomes q N (yields g V roots s m ps) = d * ((List.range m).map fun j => (1 - S) ^ j).sum := by
  obtain ⟨L, hnd, hif, hmem, hfol⟩ := attempt_list (α := α) g roots hap
  have hlisted := listed_of g L [] L rfl hnd hif
  have hLlen : L.length ≤ (above g roots).length := (hnd.subperm fun v hv => (hmem v).1 hv).length_le
  obtain ⟨-, -, -, -, -, -, hset⟩ := C02_orders_agree g roots hap s.st hs
  obtain ⟨-, hval⟩ := hset chk ps _ hok
  have hord : ∀ v, v ∈ order g roots ↔ (g.kind v).isFree = true ∧ v ∈ L := fun v => by rw [mem_order, hmem, mem_above]
  -- the values that the vector sets
  have hother : ∀ y, y ∉ order g roots → (setParameters g chk roots ps s.st).1.value y = s.st.value y := by
    have key := setParameters_eq g chk ps roots hap s.st hs
    cases ha : assignInOrder chk ps (order g roots) 0 s.st.value with
    | error e =>
      rw [ha] at key
      rcases e with ⟨i | _, val⟩
      · simp only [hok] at key; exact absurd key.1 (by simp)
      · simp only [hok] at key; exact absurd key.1 (by simp)
    | ok r =>
      obtain ⟨val, k⟩ := r
      rw [ha] at key
      simp only at key
      rw [key.2.1]
      exact assignInOrder_other chk ps _ 0 _ _ _ ha
  generalize hτ : (setParameters g chk roots ps s.st).1.value = τ at hval hother
  have hmap : (order g roots).map τ = ps.map some := by
    apply List.ext_getElem
    · simp [hlen]
    · intro i h1 h2
      simp only [List.length_map] at h1
      simp only [List.getElem_map]
      rw [(hval i h1).1, List.getElem?_eq_getElem (hval i h1).2]
  have hdens := C07_prior_density_partial (M := ℝ) g roots hap s.st hs chk (V.chance outcomes q) ps hok hdisc
  rw [hτ, zip_map_values (order g roots) ps τ hlen (fun i hi => (hval i hi).1) (fun v x => V.chance outcomes q τ v x)] at hdens
  refine ⟨_, goodMass g V outcomes q (fun _ => true) L s.st.value, hdens, fun N hN => ?_, fun m N hN => ?_⟩
  · have h1 := prob_tries g outcomes q hV hq L hlisted (fun _ => true) s.st.value 1 s.st.value [] N (fun _ _ => rfl) (by omega)
    simp only [List.nil_append, List.length_nil] at h1
    rw [show (List.range 1) = [0] from rfl] at h1
    simp only [List.map_cons, List.map_nil, pow_zero, List.sum_cons, List.sum_nil, add_zero, mul_one] at h1
    rw [← h1]
    refine prob_congr outcomes q N _ _ fun w _ => ?_
    have := sampleFromPrior_tries g (V.sim w) roots hap L (fun s hs hl => hfol (V.sim w) s hs hl) (fun _ => true) 1 s hs
    rw [hclock] at this
    rw [← this]
    cases sampleFromPrior g (V.sim w) roots 1 s <;> rfl
  · have h1 := prob_tries g outcomes q hV hq L hlisted (fun w => decide (∀ u ∈ order g roots, w u = τ u)) s.st.value m s.st.value [] N (fun _ _ => rfl)
      (le_trans (Nat.mul_le_mul_left m hLlen) hN)
    simp only [List.nil_append, List.length_nil] at h1
    have h2 := goodMass_eq g outcomes q hV hq (order g roots) τ L hlisted (fun v hv => ((hord v).1 hv).1) (fun v hv hf => (hord v).2 ⟨hf, hv⟩)
      (fun v hv => by
        obtain ⟨i, hi, rfl⟩ := List.getElem_of_mem hv
        rw [(hval i hi).1, List.getElem?_eq_getElem (hval i hi).2]; rfl)
      (fun v _ => hop v) (fun v hv hf p hp => by
        have hva : ∃ r ∈ roots, Anc g v r := (mem_above g roots v).1 ((hmem v).1 hv)
        have hpa : p ∈ L := by
          rw [hmem, mem_above]
          obtain ⟨r, hr, ha⟩ := hva
          exact ⟨r, hr, (Anc.input hp).trans ha⟩
        cases hkp : g.kind p with
        | hyper => exact .inl rfl
        | op => exact absurd hkp (hfeed v hf hva p hp)
        | cont => exact .inr ((hord p).2 ⟨by simp [hkp, Kind.isFree], hpa⟩)
        | disc => exact .inr ((hord p).2 ⟨by simp [hkp, Kind.isFree], hpa⟩)) s.st.value
      (fun x hx => (hother x (fun h => by have := ((hord x).1 h).1; simp [hx, Kind.isFree] at this)).symm)
    rw [if_pos (fun u hu hul => absurd ((hord u).1 hu).2 hul)] at h2
    have hperm : (L.filter fun v => (g.kind v).isFree).Perm (order g roots) := by
      rw [List.perm_ext_iff_of_nodup (hnd.filter _) (order_nodup g roots)]
      intro v
      rw [hord, List.mem_filter, and_comm]
    rw [(hperm.map _).prod_eq] at h2
    rw [h2] at h1
    rw [← h1]
    refine prob_congr outcomes q N _ _ fun w _ => ?_
    have := sampleFromPrior_tries g (V.sim w) roots hap L (fun s hs hl => hfol (V.sim w) s hs hl) (fun w => decide (∀ u ∈ order g roots, w u = τ u)) m s hs
    rw [hclock] at this
    rw [← this, yields]
    cases hr : sampleFromPrior g (V.sim w) roots m s with
    | none => rfl
    | some s' =>
      simp only [Option.any_some, decide_eq_decide]
      rw [(getParameters_eq g roots s'.st (sampleFromPrior_clean g _ roots hap m s s' hs hr)).1, ← hmap]
      exact List.map_inj_left

/-- C211, when no random variable refuses its inputs: the first attempt gets through, and the probability of a parameter vector is its prior density. -/
theorem C211_no_refusal_partial [Nonempty α] (V : Vars A α) (hV : V.Proper g) (outcomes : List A) (q : A → ℝ) (hq : (outcomes.map q).sum = 1) (roots : List Nat)
    (hap : RootsApart g roots) (hdraw : ∀ vals v a, V.draw vals v a ≠ none)
    (hfeed : ∀ v, (g.kind v).isFree = true → (∃ r ∈ roots, Anc g v r) → ∀ p ∈ g.parents v, g.kind p ≠ .op)
    (hdisc : ∀ v, g.kind v = .disc → (above g roots).count v ≤ 1) (s : Smp α) (hs : Clean s.st) (hclock : s.clock = 0)
    (chk : (Nat → Option α) → Nat → α → Verdict) (ps : List α) (hlen : ps.length = (order g roots).length)
    (hok : (setParameters g chk roots ps s.st).2 = .ok (order g roots).length) (N : Nat) (hN : (above g roots).length ≤ N) :
    (pdfOfPrior g chk (V.chance outcomes q) roots ps s.st).2 = some (prob outcomes q N (yields g V roots s 1 ps)) := by
  obtain ⟨d, S, h1, -, h3⟩ := C211_prior_law_partial g V hV outcomes q hq roots hap (fun v _ => fun vals a => hdraw vals v a) hfeed hdisc s hs hclock chk ps hlen hok
  rw [h1, h3 1 N (by omega)]
  simp

/-- C211, for calls that may try as often as they like: if an attempt gets through with positive probability, the probability of a parameter vector tends to its prior density
divided by that probability. So the parameters follow the prior density, normalised. -/
theorem C211_retries_partial [Nonempty α] (V : Vars A α) (hV : V.Proper g) (outcomes : List A) (q : A → ℝ) (hq : (outcomes.map q).sum = 1) (roots : List Nat)
    (hap : RootsApart g roots) (hop : ∀ v, g.kind v = .op → ∀ vals a, V.draw vals v a ≠ none)
    (hfeed : ∀ v, (g.kind v).isFree = true → (∃ r ∈ roots, Anc g v r) → ∀ p ∈ g.parents v, g.kind p ≠ .op)
    (hdisc : ∀ v, g.kind v = .disc → (above g roots).count v ≤ 1) (s : Smp α) (hs : Clean s.st) (hclock : s.clock = 0)
    (chk : (Nat → Option α) → Nat → α → Verdict) (ps : List α) (hlen : ps.length = (order g roots).length)
    (hok : (setParameters g chk roots ps s.st).2 = .ok (order g roots).length) (S : ℝ) (hS : 0 < S) (hS1 : S ≤ 1)
    (hsucc : prob outcomes q (above g roots).length (fun w => (sampleFromPrior g (V.sim w) roots 1 s).isSome) = S) :
    ∃ d : ℝ, (pdfOfPrior g chk (V.chance outcomes q) roots ps s.st).2 = some d ∧
      Tendsto (fun m => prob outcomes q (m * (above g roots).length) (yields g V roots s m ps)) atTop (𝓝 (d / S)) := by
  obtain ⟨d, S', h1, h2, h3⟩ := C211_prior_law_partial g V hV outcomes q hq roots hap hop hfeed hdisc s hs hclock chk ps hlen hok
  obtain rfl : S' = S := by rw [← h2 _ le_rfl, hsucc]
  refine ⟨d, h1, ?_⟩
  simp only [fun m => h3 m _ le_rfl]
  have hsum : ∀ m : Nat, ((List.range m).map fun j => (1 - S') ^ j).sum = (1 - (1 - S') ^ m) / S' := by
    intro m
    induction m with
    | zero => simp
    | succ m ih =>
      rw [List.range_succ, List.map_append, List.sum_append, ih]
      simp only [List.map_cons, List.map_nil, List.sum_cons, List.sum_nil, add_zero]
      field_simp
      ring
  simp only [hsum]
  have hpow : Tendsto (fun m : Nat => (1 - S') ^ m) atTop (𝓝 0) := tendsto_pow_atTop_nhds_zero_of_lt_one (by linarith) (by linarith)
  have := ((hpow.const_sub 1).div_const S').const_mul d
  simpa [div_eq_mul_inv] using this

/-! ### Concrete graphs -/

/-- A coin (node 0) and a second one that may be thrown only after the first showed heads (node 1), data of node 2. -/
def coins : Vars Bool Bool := ⟨fun vals v a => if v = 1 ∧ vals 0 = some false then none else some a, fun _ _ _ => true⟩

theorem coins_proper : coins.Proper chainG := by
  refine ⟨fun vals vals' v a h => ?_, fun _ _ _ _ _ => rfl⟩
  by_cases hv : v = 1
  · subst hv
    have := h 0 (by simp [chainG, G.ofTable])
    simp [coins, this]
  · simp [coins, hv]

theorem chainG_above : above chainG [2] = [1, 0] := by simp [above, unfold_eq, chainG, G.ofTable]

theorem chainG_kind (v : Nat) : chainG.kind v ≠ .op ∧ chainG.kind v ≠ .disc := by
  by_cases hv : v < 3
  · have : v = 0 ∨ v = 1 ∨ v = 2 := by omega
    rcases this with e | e | e <;> subst e <;> simp [chainG, G.ofTable]
  · simp [chainG, G.ofTable, hv]

/-- An attempt gets through in half of the cases; then the first coin shows heads and the second one is fair. -/
example : ∃ d S : ℝ, (pdfOfPrior chainG (fun _ _ _ => .accept) (coins.chance [true, false] fun _ => 1 / 2) [2] [true, true] St.blank).2 = some d ∧
      (∀ N, 2 ≤ N → prob [true, false] (fun _ => 1 / 2) N (fun w => (sampleFromPrior chainG (coins.sim w) [2] 1 ⟨St.blank, 0, []⟩).isSome) = S) ∧
      ∀ m N, m * 2 ≤ N → prob [true, false] (fun _ => 1 / 2) N (yields chainG coins [2] ⟨St.blank, 0, []⟩ m [true, true]) =
        d * ((List.range m).map fun j => (1 - S) ^ j).sum := by
  have := C211_prior_law_partial chainG coins coins_proper [true, false] (fun _ => 1 / 2) (by norm_num) [2] chainG_apart
    (fun v hv => absurd hv (chainG_kind v).1) (fun v _ _ p _ => (chainG_kind p).1) (fun v hv => absurd hv (chainG_kind v).2) ⟨St.blank, 0, []⟩ blank_clean rfl
    (fun _ _ _ => .accept) [true, true] (by rw [chainG_order]; rfl) (by
      have key := setParameters_eq chainG (fun _ _ _ => .accept) [true, true] [2] chainG_apart (St.blank : St Bool) blank_clean
      rw [chainG_order] at key
      simp [assignInOrder] at key
      rw [chainG_order]; exact key.1)
  rwa [chainG_above] at this

theorem coins_set : (setParameters chainG (fun _ _ _ => .accept) [2] [true, true] (St.blank : St Bool)).2 = .ok (order chainG [2]).length := by
  have key := setParameters_eq chainG (fun _ _ _ => .accept) [true, true] [2] chainG_apart (St.blank : St Bool) blank_clean
  rw [chainG_order] at key
  simp [assignInOrder] at key
  rw [chainG_order]; exact key.1

/-- Trying again until an attempt gets through. -/
example : ∃ d : ℝ, (pdfOfPrior chainG (fun _ _ _ => .accept) (coins.chance [true, false] fun _ => 1 / 2) [2] [true, true] St.blank).2 = some d ∧
      Tendsto (fun m => prob [true, false] (fun _ => 1 / 2) (m * (above chainG [2]).length) (yields chainG coins [2] ⟨St.blank, 0, []⟩ m [true, true])) atTop (𝓝 (d / (1 / 2))) := by
  refine C211_retries_partial chainG coins coins_proper [true, false] (fun _ => 1 / 2) (by norm_num) [2] chainG_apart
    (fun v hv => absurd hv (chainG_kind v).1) (fun v _ _ p _ => (chainG_kind p).1) (fun v hv => absurd hv (chainG_kind v).2) ⟨St.blank, 0, []⟩ blank_clean rfl
    (fun _ _ _ => .accept) [true, true] (by rw [chainG_order]; rfl) coins_set (1 / 2) (by norm_num) (by norm_num) ?_
  have h2 : chainG.parents 2 = [1] := rfl
  have h1 : chainG.parents 1 = [0] := rfl
  have h0 : chainG.parents 0 = [] := rfl
  have k1 : chainG.kind 1 = .cont := rfl
  have k0 : chainG.kind 0 = .cont := rfl
  have hy : ∀ a b, (sampleFromPrior chainG (coins.sim [a, b]) [2] 1 ⟨St.blank, 0, []⟩).isSome = a := by
    intro a b
    cases a <;> simp [sampleFromPrior, sampleAttempt, forMemE, sampleRoot_unfold, sampleNode_unfold, sampleStep, loopE, drawNode, h0, h1, h2, k0, k1, mark, store,
      Vars.sim, coins, St.blank]
  rw [chainG_above]
  simp [prob, sequences, hy]
  norm_num

/-- Two fair coins: every pair has density and probability 1/4. -/
example : (pdfOfPrior chainG (fun _ _ _ => .accept) ((⟨fun _ _ a => some a, fun _ _ _ => true⟩ : Vars Bool Bool).chance [true, false] fun _ => 1 / 2) [2] [true, true] St.blank).2 =
    some (prob [true, false] (fun _ => 1 / 2) 2 (yields chainG ⟨fun _ _ a => some a, fun _ _ _ => true⟩ [2] ⟨St.blank, 0, []⟩ 1 [true, true])) :=
  C211_no_refusal_partial chainG _ ⟨fun _ _ _ _ _ => rfl, fun _ _ _ _ _ => rfl⟩ [true, false] (fun _ => 1 / 2) (by norm_num) [2] chainG_apart
    (fun _ _ _ => by simp) (fun v _ _ p _ => (chainG_kind p).1) (fun v hv => absurd hv (chainG_kind v).2) ⟨St.blank, 0, []⟩ blank_clean rfl
    (fun _ _ _ => .accept) [true, true] (by rw [chainG_order]; rfl) coins_set 2 (by rw [chainG_above]; rfl)

/-- The discrete parameter of `sharedDiscG` is a fair coin, the two parameters that use it copy it. -/
def copies : Vars Bool Bool := ⟨fun vals v a => if v = 0 then some a else some ((vals 0).getD false), fun _ _ _ => true⟩

/-- C211 fails for a discrete parameter that feeds two others: the vector in which all three are true is drawn with probability 1/2, the density is 1/4. -/
theorem C211_shared_discrete_violated :
    (pdfOfPrior sharedDiscG (fun _ _ _ => .accept) (copies.chance [true, false] fun _ => 1 / 2) [3] [true, true, true] St.blank).2 = some (1 / 4 : ℝ) ∧
    prob [true, false] (fun _ => 1 / 2) 3 (yields sharedDiscG copies [3] ⟨St.blank, 0, []⟩ 1 [true, true, true]) = 1 / 2 := by
  have key := setParameters_eq sharedDiscG (fun _ _ _ => .accept) [true, true, true] [3] sharedDiscG_apart (St.blank : St Bool) blank_clean
  rw [sharedDiscG_order] at key
  simp [assignInOrder] at key
  constructor
  · rcases pdfOfPrior_eq sharedDiscG (fun _ _ _ => .accept) (copies.chance [true, false] fun _ => 1 / 2) [3] sharedDiscG_apart [true, true, true] St.blank blank_clean
      with ⟨p1, -⟩ | ⟨-, p2, -⟩
    · rw [key.1] at p1; simp at p1
    · rw [p2, key.2.1, sharedDiscG_above, sharedDiscG_order]
      simp [pdfVal, prodOver, fresh, Vars.chance, copies, sharedDiscG, G.ofTable, List.filter_cons]
      norm_num
  · have h3 : sharedDiscG.parents 3 = [1, 2] := rfl
    have h2 : sharedDiscG.parents 2 = [0] := rfl
    have h1 : sharedDiscG.parents 1 = [0] := rfl
    have h0 : sharedDiscG.parents 0 = [] := rfl
    have k2 : sharedDiscG.kind 2 = .cont := rfl
    have k1 : sharedDiscG.kind 1 = .cont := rfl
    have k0 : sharedDiscG.kind 0 = .disc := rfl
    have hy : ∀ a b c, yields sharedDiscG copies [3] ⟨St.blank, 0, []⟩ 1 [true, true, true] [a, b, c] = a := by
      intro a b c
      unfold yields
      cases hr : sampleFromPrior sharedDiscG (copies.sim [a, b, c]) [3] 1 ⟨St.blank, 0, []⟩ with
      | none =>
        simp [sampleFromPrior, sampleAttempt, forMemE, sampleRoot_unfold, sampleNode_unfold, sampleStep, loopE, drawNode, h0, h1, h2, h3, k0, k1, k2, mark, store,
          St.blank, Vars.sim, copies] at hr
      | some s' =>
        have hc := sampleFromPrior_clean sharedDiscG _ [3] sharedDiscG_apart 1 _ s' blank_clean hr
        simp only [Option.any_some]
        rw [(getParameters_eq sharedDiscG [3] s'.st hc).1, sharedDiscG_order]
        simp [sampleFromPrior, sampleAttempt, forMemE, sampleRoot_unfold, sampleNode_unfold, sampleStep, loopE, drawNode, h0, h1, h2, h3, k0, k1, k2, mark, store,
          St.blank, Vars.sim, copies] at hr
        subst hr
        simp [resetFlags_eq]
    simp [prob, sequences, hy]
    norm_num

/-- Parameter 0 reaches parameter 2 through the arithmetic node 1, node 3 is the simulator. -/
def sumG : G := G.ofTable [(.cont, []), (.op, [0, 0]), (.cont, [1]), (.cont, [2])] (by decide)

theorem sumG_order : order sumG [3] = [2, 0] := by
  simp [order, above, unfold_eq, sumG, G.ofTable]
  decide

theorem sumG_above : above sumG [3] = [2, 1, 0, 0] := by
  simp [above, unfold_eq, sumG, G.ofTable]

theorem sumG_apart : RootsApart sumG [3] := by
  intro r hr r' hr' h
  simp at hr hr'; subst hr; subst hr'
  exact absurd h.lt (by omega)

/-- Parameter 0 is a fair coin. The arithmetic node throws the coin again instead of reading it (probabilisticmodels.py 880-920), parameter 2 copies the arithmetic node. -/
def sumVars : Vars Bool Bool := ⟨fun vals v a => if v = 2 then some ((vals 1).getD false) else some a, fun _ _ _ => true⟩

/-- C211 fails when an arithmetic node feeds a parameter: setting a vector does not compute the value of the arithmetic node, so that the density uses the value of
an earlier draw. After a draw in which every coin showed tails, the vector with two heads has density 0, but it is drawn with probability 1/4. -/
theorem C211_arithmetic_violated :
    (pdfOfPrior sumG (fun _ _ _ => .accept) (sumVars.chance [true, false] fun _ => 1 / 2) [3] [true, true] ⟨fun _ => false, fun _ => false, fun _ => some false⟩).2 = some (0 : ℝ) ∧
    prob [true, false] (fun _ => 1 / 2) 3 (yields sumG sumVars [3] ⟨⟨fun _ => false, fun _ => false, fun _ => some false⟩, 0, []⟩ 1 [true, true]) = 1 / 4 := by
  have key := setParameters_eq sumG (fun _ _ _ => .accept) [true, true] [3] sumG_apart (⟨fun _ => false, fun _ => false, fun _ => some false⟩ : St Bool) (fun _ => rfl)
  rw [sumG_order] at key
  simp [assignInOrder] at key
  constructor
  · rcases pdfOfPrior_eq sumG (fun _ _ _ => .accept) (sumVars.chance [true, false] fun _ => 1 / 2) [3] sumG_apart [true, true]
      (⟨fun _ => false, fun _ => false, fun _ => some false⟩ : St Bool) (fun _ => rfl) with ⟨p1, -⟩ | ⟨-, p2, -⟩
    · rw [key.1] at p1; simp at p1
    · rw [p2, key.2.1, sumG_above, sumG_order]
      simp [pdfVal, prodOver, fresh, Vars.chance, sumVars, sumG, G.ofTable, List.filter_cons]
  · have h3 : sumG.parents 3 = [2] := rfl
    have h2 : sumG.parents 2 = [1] := rfl
    have h1 : sumG.parents 1 = [0, 0] := rfl
    have h0 : sumG.parents 0 = [] := rfl
    have k2 : sumG.kind 2 = .cont := rfl
    have k1 : sumG.kind 1 = .op := rfl
    have k0 : sumG.kind 0 = .cont := rfl
    have hy : ∀ a b c, yields sumG sumVars [3] ⟨⟨fun _ => false, fun _ => false, fun _ => some false⟩, 0, []⟩ 1 [true, true] [a, b, c] = (a && b) := by
      intro a b c
      unfold yields
      cases hr : sampleFromPrior sumG (sumVars.sim [a, b, c]) [3] 1 ⟨⟨fun _ => false, fun _ => false, fun _ => some false⟩, 0, []⟩ with
      | none =>
        simp [sampleFromPrior, sampleAttempt, forMemE, sampleRoot_unfold, sampleNode_unfold, sampleStep, loopE, drawNode, h0, h1, h2, h3, k0, k1, k2, mark, store,
          Vars.sim, sumVars] at hr
      | some s' =>
        have hc := sampleFromPrior_clean sumG _ [3] sumG_apart 1 _ s' (fun _ => rfl) hr
        simp only [Option.any_some]
        rw [(getParameters_eq sumG [3] s'.st hc).1, sumG_order]
        simp [sampleFromPrior, sampleAttempt, forMemE, sampleRoot_unfold, sampleNode_unfold, sampleStep, loopE, drawNode, h0, h1, h2, h3, k0, k1, k2, mark, store,
          Vars.sim, sumVars] at hr
        subst hr
        cases a <;> cases b <;> simp [resetFlags_eq]
    simp [prob, sequences, hy]
    norm_num

end Verif.Graph
