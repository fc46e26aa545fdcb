import Mathlib.Algebra.Order.Field.Basic
import Mathlib.Algebra.Order.Floor.Defs
import Mathlib.Data.List.Sort

/-!
# Common vocabulary of the model

Error values and checked access to vectors.
-/

namespace KMC

/-- The ways in which the code can leave its defined behaviour or report an error.
* `outOfBounds`: read or write outside a `std::vector`, dereferencing `end()`,
  `back()` of an empty vector, `find()` result used without check (all undefined behaviour in C++).
* `exception`: a thrown `std::runtime_error` / `std::out_of_range` or a Python `Error`.
* `overflow`: signed integer overflow (undefined behaviour in C++).
* `divByZero`: Python `ZeroDivisionError`.
* `indexError`: Python `IndexError`.
* `diverges`: a loop that never ends. -/
inductive Fault
  | outOfBounds
  | exception
  | overflow
  | divByZero
  | indexError
  | diverges
  deriving DecidableEq, Repr

/-- Results of code that may fail. -/
abbrev M (α : Type _) := Except Fault α

/-- Deciding equality of results, used by the executable witnesses. -/
instance instDecidableEqExcept {ε α : Type _} [DecidableEq ε] [DecidableEq α] :
    DecidableEq (Except ε α)
  | .ok a, .ok b => if h : a = b then isTrue (by rw [h]) else isFalse (by intro h'; cases h'; exact h rfl)
  | .error a, .error b =>
      if h : a = b then isTrue (by rw [h]) else isFalse (by intro h'; cases h'; exact h rfl)
  | .ok _, .error _ => isFalse (by intro h; cases h)
  | .error _, .ok _ => isFalse (by intro h; cases h)

/-- `xs[i]` on a `std::vector`, with the out of range access made visible. -/
def rd {α : Type _} (xs : List α) (i : Nat) : M α :=
  match xs[i]? with
  | some a => .ok a
  | none => .error .outOfBounds

/-- `xs[i] = v` on a `std::vector`, with the out of range access made visible. -/
def wr {α : Type _} (xs : List α) (i : Nat) (v : α) : M (List α) :=
  if i < xs.length then .ok (xs.set i v) else .error .outOfBounds

/-- `for (x : xs) s = f(s, x)` where the body may fail. -/
def loopM {σ α : Type _} (f : σ → α → M σ) : List α → σ → M σ
  | [], s => .ok s
  | x :: xs, s =>
    match f s x with
    | .ok s' => loopM f xs s'
    | .error e => .error e

/-- Element by element evaluation of a function that may fail. -/
def mapMM {α β : Type _} (f : α → M β) : List α → M (List β)
  | [] => .ok []
  | x :: xs =>
    match f x with
    | .error e => .error e
    | .ok y =>
      match mapMM f xs with
      | .error e => .error e
      | .ok ys => .ok (y :: ys)

/-- C++ `static_cast<int>(x)` for a floating point `x`: truncation towards zero.
(No overflow check.) -/
def truncInt {K : Type _} [Field K] [LinearOrder K] [FloorRing K] (x : K) : Int :=
  if 0 ≤ x then ⌊x⌋ else ⌈x⌉

end KMC
