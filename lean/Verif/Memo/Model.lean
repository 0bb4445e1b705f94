import Mathlib.Data.List.Basic

/-!
# Memoisation

`abcpy/utils.py` 7-16 (`cached`), used for the bisection of SMCABC (`abcpy/inferences.py` 3708).

Arguments are compared as dictionary keys are (`==` after the hash); `same` is that comparison. The
function may fail (`none`); it may depend on and change a state `W` (random state, counters), so that
"transparent" is a statement and not a definition.
-/

namespace Verif.Memo

/-- A Python function of one argument: result (`none` for an exception) and new state. -/
abbrev Fn (W A B : Type) := A → W → Option B × W

/-- The closure: the dictionary, newest entry first, and the arguments at which the function has been
evaluated so far, newest first (not in the program, for stating the property). -/
structure Cache (A B : Type) where
  entries : List (A × B)
  evaluated : List A

/-- `cache = {}` (utils.py 8). -/
def Cache.new {A B : Type} : Cache A B := ⟨[], []⟩

/-- `cache[x]`, when `x` is in the dictionary. -/
def Cache.find {A B : Type} (same : A → A → Bool) (c : Cache A B) (x : A) : Option B :=
  (c.entries.find? fun e => same e.1 x).map Prod.snd

/-- `wrapped(x)` (utils.py 11-14). When `func(x)` raises nothing is stored. -/
def wrapped {W A B : Type} (same : A → A → Bool) (func : Fn W A B) (c : Cache A B) (x : A) (w : W) :
    Option B × Cache A B × W :=
  match c.find same x with
  | some y => (some y, c, w)
  | none => match func x w with
    | (some y, w') => (some y, ⟨(x, y) :: c.entries, x :: c.evaluated⟩, w')
    | (none, w') => (none, ⟨c.entries, x :: c.evaluated⟩, w')

/-- A sequence of calls; the caller goes on after an exception. -/
def calls {W A B : Type} (same : A → A → Bool) (func : Fn W A B) :
    Cache A B → List A → W → List (Option B) × Cache A B × W
  | c, [], w => ([], c, w)
  | c, x :: xs, w =>
    let (y, c1, w1) := wrapped same func c x w
    let (ys, c2, w2) := calls same func c1 xs w1
    (y :: ys, c2, w2)

end Verif.Memo
