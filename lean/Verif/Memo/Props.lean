import Verif.Memo.Model

/-!
# C64: memoisation is transparent
-/

namespace Verif.Memo

/-! ## Specification -/

/-- The comparison of keys is an equivalence. -/
structure Keys {A : Type} (same : A → A → Bool) : Prop where
  refl : ∀ x, same x x = true
  symm : ∀ x y, same x y = true → same y x = true
  trans : ∀ x y z, same x y = true → same y z = true → same x z = true

/-- The function returns the value `f x` (or fails when this is `none`) whatever the state. -/
def Deterministic {W A B : Type} (func : Fn W A B) (f : A → Option B) : Prop := ∀ x w, (func x w).1 = f x

/-- Equal keys have equal values. -/
def Respects {A B : Type} (same : A → A → Bool) (f : A → Option B) : Prop := ∀ x y, same x y = true → f x = f y

/-! ## Proofs -/

/-- The dictionary holds values of the function, and every key that has been evaluated without failure
is in it. -/
structure Good {A B : Type} (same : A → A → Bool) (f : A → Option B) (c : Cache A B) : Prop where
  value : ∀ e ∈ c.entries, f e.1 = some e.2
  stored : ∀ x ∈ c.evaluated, (f x).isSome → ∃ e ∈ c.entries, same e.1 x = true
  once : c.evaluated.Pairwise fun x y => same y x = true → f x = none

theorem good_new {A B : Type} (same : A → A → Bool) (f : A → Option B) : Good same f Cache.new :=
  ⟨by simp [Cache.new], by simp [Cache.new], by simp [Cache.new]⟩

theorem wrapped_good {W A B : Type} {same : A → A → Bool} (hk : Keys same) {func : Fn W A B} {f : A → Option B}
    (hd : Deterministic func f) (hr : Respects same f) {c : Cache A B} (hc : Good same f c) (x : A) (w : W) :
    (wrapped same func c x w).1 = f x ∧ Good same f (wrapped same func c x w).2.1 := by
  cases hf : c.find same x with
  | some y =>
    have e : wrapped same func c x w = (some y, c, w) := by rw [wrapped, hf]
    rw [e]
    refine ⟨?_, hc⟩
    rw [Cache.find, Option.map_eq_some_iff] at hf
    obtain ⟨p, hp, rfl⟩ := hf
    have hm := List.mem_of_find?_eq_some hp
    have hs := List.find?_some hp
    rw [← hr _ _ hs, hc.value p hm]
  | none =>
    have hnot : ∀ e ∈ c.entries, ¬ same e.1 x = true := by
      rw [Cache.find, Option.map_eq_none_iff, List.find?_eq_none] at hf
      exact hf
    have hnew : ∀ y ∈ c.evaluated, same y x = true → f x = none := by
      intro y hy hs
      by_contra hne
      have : (f y).isSome := by rw [hr y x hs]; exact Option.isSome_iff_ne_none.2 hne
      obtain ⟨e, he, hes⟩ := hc.stored y hy this
      exact hnot e he (hk.trans _ _ _ hes hs)
    have hval := hd x w
    cases hfx : func x w with
    | mk r w' =>
      rw [hfx] at hval
      cases r with
      | some y =>
        have e : wrapped same func c x w = (some y, ⟨(x, y) :: c.entries, x :: c.evaluated⟩, w') := by
          rw [wrapped, hf]; simp only [hfx]
        rw [e]
        refine ⟨hval, ?_, ?_, ?_⟩
        · intro p hp
          rcases List.mem_cons.1 hp with rfl | hp
          · exact hval.symm
          · exact hc.value p hp
        · intro z hz hs
          rcases List.mem_cons.1 hz with rfl | hz
          · exact ⟨(z, y), by simp, hk.refl z⟩
          · obtain ⟨p, hp, h⟩ := hc.stored z hz hs
            exact ⟨p, by simp [hp], h⟩
        · exact List.pairwise_cons.2 ⟨hnew, hc.once⟩
      | none =>
        have e : wrapped same func c x w = (none, ⟨c.entries, x :: c.evaluated⟩, w') := by
          rw [wrapped, hf]; simp only [hfx]
        rw [e]
        refine ⟨hval, hc.value, ?_, ?_⟩
        · intro z hz hs
          rcases List.mem_cons.1 hz with rfl | hz
          · rw [← hval] at hs; cases hs
          · exact hc.stored z hz hs
        · exact List.pairwise_cons.2 ⟨hnew, hc.once⟩

theorem calls_good {W A B : Type} {same : A → A → Bool} (hk : Keys same) {func : Fn W A B} {f : A → Option B}
    (hd : Deterministic func f) (hr : Respects same f) (xs : List A) {c : Cache A B} (hc : Good same f c) (w : W) :
    (calls same func c xs w).1 = xs.map f ∧ Good same f (calls same func c xs w).2.1 := by
  induction xs generalizing c w with
  | nil => exact ⟨rfl, hc⟩
  | cons x xs ih =>
    obtain ⟨h1, h2⟩ := wrapped_good hk hd hr hc x w
    obtain ⟨h3, h4⟩ := ih h2 (wrapped same func c x w).2.2
    refine ⟨?_, h4⟩
    rw [List.map_cons, ← h1, ← h3]; rfl

/-- C64: for a deterministic function that does not distinguish equal keys, every sequence of calls of
the cached function returns what the function returns (exceptions included), and among the arguments at
which the function has been evaluated no two are equal keys, unless the function fails there. -/
theorem C64_partial {W A B : Type} (same : A → A → Bool) (hk : Keys same) (func : Fn W A B) (f : A → Option B)
    (hd : Deterministic func f) (hr : Respects same f) (xs : List A) (w : W) :
    (calls same func Cache.new xs w).1 = xs.map f ∧
    (calls same func Cache.new xs w).2.1.evaluated.Pairwise fun x y => same y x = true → f x = none := by
  obtain ⟨h1, h2⟩ := calls_good hk hd hr xs (good_new same f) w
  exact ⟨h1, h2.once⟩

/-- C64, the evaluations are not invented: only arguments of calls are evaluated, and each of them has
been evaluated (up to equality of keys). -/
theorem C64_evaluated {W A B : Type} (same : A → A → Bool) (hk : Keys same) (func : Fn W A B) (xs : List A) (w : W) :
    (∀ x ∈ (calls same func Cache.new xs w).2.1.evaluated, x ∈ xs) ∧
    ∀ x ∈ xs, ∃ y ∈ (calls same func Cache.new xs w).2.1.evaluated, same y x = true := by
  have step : ∀ (c : Cache A B) x w, (∀ e ∈ c.entries, e.1 ∈ c.evaluated) →
      (∀ e ∈ (wrapped same func c x w).2.1.entries, e.1 ∈ (wrapped same func c x w).2.1.evaluated) ∧
      (∀ y ∈ c.evaluated, y ∈ (wrapped same func c x w).2.1.evaluated) ∧
      (∀ y ∈ (wrapped same func c x w).2.1.evaluated, y ∈ c.evaluated ∨ y = x) ∧
      ∃ y ∈ (wrapped same func c x w).2.1.evaluated, same y x = true := by
    intro c x w hc
    cases hf : c.find same x with
    | some y =>
      have e : wrapped same func c x w = (some y, c, w) := by rw [wrapped, hf]
      rw [e]
      refine ⟨hc, fun y h => h, fun y h => .inl h, ?_⟩
      rw [Cache.find, Option.map_eq_some_iff] at hf
      obtain ⟨p, hp, -⟩ := hf
      exact ⟨p.1, hc p (List.mem_of_find?_eq_some hp), List.find?_some (p := fun e : A × B => same e.1 x) hp⟩
    | none =>
      cases hfx : func x w with
      | mk r w' =>
        cases r with
        | some y =>
          have e : wrapped same func c x w = (some y, ⟨(x, y) :: c.entries, x :: c.evaluated⟩, w') := by
            rw [wrapped, hf]; simp only [hfx]
          rw [e]
          refine ⟨?_, fun y h => by simp [h], fun y h => by simpa [or_comm] using h, x, by simp, hk.refl x⟩
          intro p hp
          rcases List.mem_cons.1 hp with rfl | hp
          · simp
          · exact List.mem_cons_of_mem _ (hc p hp)
        | none =>
          have e : wrapped same func c x w = (none, ⟨c.entries, x :: c.evaluated⟩, w') := by
            rw [wrapped, hf]; simp only [hfx]
          rw [e]
          exact ⟨fun p hp => List.mem_cons_of_mem _ (hc p hp), fun y h => by simp [h], fun y h => by simpa [or_comm] using h,
            x, by simp, hk.refl x⟩
  have all : ∀ xs (c : Cache A B) w, (∀ e ∈ c.entries, e.1 ∈ c.evaluated) →
      (∀ y ∈ c.evaluated, y ∈ (calls same func c xs w).2.1.evaluated) ∧
      (∀ y ∈ (calls same func c xs w).2.1.evaluated, y ∈ c.evaluated ∨ y ∈ xs) ∧
      ∀ x ∈ xs, ∃ y ∈ (calls same func c xs w).2.1.evaluated, same y x = true := by
    intro xs
    induction xs with
    | nil => exact fun c w hc => ⟨fun y h => h, fun y h => .inl h, by simp⟩
    | cons x xs ih =>
      intro c w hc
      obtain ⟨s1, s2, s3, y, hy, hs⟩ := step c x w hc
      obtain ⟨i1, i2, i3⟩ := ih (wrapped same func c x w).2.1 (wrapped same func c x w).2.2 s1
      refine ⟨fun z hz => i1 z (s2 z hz), ?_, ?_⟩
      · intro z hz
        rcases i2 z hz with h | h
        · rcases s3 z h with h | rfl
          · exact .inl h
          · exact .inr (by simp)
        · exact .inr (by simp [h])
      · intro z hz
        rcases List.mem_cons.1 hz with rfl | hz
        · exact ⟨y, i1 y hy, hs⟩
        · exact i3 z hz
  obtain ⟨-, h2, h3⟩ := all xs Cache.new w (by simp [Cache.new])
  refine ⟨fun x hx => ?_, h3⟩
  rcases h2 x hx with h | h
  · simp [Cache.new] at h
  · exact h

/-- Python values for the counterexample: `1`, `1.0` and `True` are equal keys. -/
inductive Value
  | int (n : Int)
  | bool (b : Bool)

def Value.asInt : Value → Int
  | .int n => n
  | .bool b => if b then 1 else 0

/-- C64 fails for functions that tell equal keys apart: for `cached(type)`, or any function that returns
something else for `True` than for `1`, the second call returns the result of the first. -/
theorem C64_violated : ∃ (same : Value → Value → Bool) (f : Value → Option Nat) (func : Fn Unit Value Nat),
    Keys same ∧ Deterministic func f ∧ ∃ xs, (calls same func Cache.new xs ()).1 ≠ xs.map f := by
  refine ⟨fun a b => decide (a.asInt = b.asInt), fun v => match v with | .int _ => some 0 | .bool _ => some 1,
    fun v w => (match v with | .int _ => some 0 | .bool _ => some 1, w), ⟨by simp, ?_, ?_⟩, fun _ _ => rfl,
    [.int 1, .bool true], ?_⟩
  · intro x y h; simpa using (of_decide_eq_true h).symm
  · intro x y z h1 h2; simpa using (of_decide_eq_true h1).trans (of_decide_eq_true h2)
  · simp [calls, wrapped, Cache.find, Cache.new, Value.asInt]

/-- Five calls of a partial function: two evaluations at the failing argument, one at the others. -/
example : calls (W := Nat) (fun a b : Nat => a == b) (fun x w => (if x = 0 then none else some (10 / x), w + 1)) Cache.new
    [2, 0, 2, 0, 5] 0 = ([some 5, none, some 5, none, some 2], ⟨[(5, 2), (2, 5)], [5, 0, 0, 2]⟩, 4) := by
  rfl

example : Keys (fun a b : Nat => a == b) := ⟨by simp, fun x y h => by simpa using (beq_iff_eq.1 h).symm, fun x y z h1 h2 => by simpa using (beq_iff_eq.1 h1).trans (beq_iff_eq.1 h2)⟩

end Verif.Memo
