import Mathlib.Algebra.Field.Defs
import Mathlib.Algebra.GroupWithZero.Basic

/-!
# How Python reads the literals in a script

Only the literals that scripts are made of: lists of names in single quotes without backslashes, and numbers with a point
and an exponent. Other text gives `none`, whether Python accepts it or not.
-/

namespace KMC.Literal

/-- Where in the text of a list of names the reader is. -/
inductive State
  | start
  /-- a name or the end of the list may come -/
  | item (read : List String)
  | inside (read : List String) (name : List Char)
  /-- a comma or the end of the list may come -/
  | after (read : List String)
  | closed (read : List String)
  deriving DecidableEq, Repr

/-- Space outside of names means nothing. -/
def blank (c : Char) : Bool := c = ' ' || c = '\n'

/-- One character. -/
def step : State → Char → Option State
  | .start, c => if c = '[' then some (.item []) else if blank c then some .start else none
  | .item l, c =>
    if c = '\'' then some (.inside l []) else if c = ']' then some (.closed l)
    else if blank c then some (.item l) else none
  | .inside l n, c =>
    if c = '\'' then some (.after (l ++ [String.ofList n]))
    else if c = '\\' ∨ c = '\n' then none else some (.inside l (n ++ [c]))
  | .after l, c =>
    if c = ',' then some (.item l) else if c = ']' then some (.closed l)
    else if blank c then some (.after l) else none
  | .closed l, c => if blank c then some (.closed l) else none

/-- The text from a state on. -/
def steps : State → List Char → Option State
  | s, [] => some s
  | s, c :: cs => match step s c with
    | some s' => steps s' cs
    | none => none

/-- The value of the text of a list of names. -/
def names (text : List Char) : Option (List String) :=
  match steps .start text with
  | some (.closed l) => some l
  | _ => none

/-- A decimal digit. -/
def isDigit (c : Char) : Bool := 48 ≤ c.toNat && c.toNat ≤ 57

/-- The value of a string of digits. -/
def natOf (cs : List Char) : Nat := cs.foldl (fun a c => 10 * a + (c.toNat - 48)) 0

/-- A number without sign, as `12.34e-05`. -/
def unsigned {K : Type _} [Field K] (cs : List Char) : Option K :=
  let i := cs.takeWhile isDigit
  match cs.dropWhile isDigit with
  | '.' :: r =>
    let f := r.takeWhile isDigit
    match r.dropWhile isDigit with
    | 'e' :: '+' :: d =>
      if i ≠ [] ∧ d ≠ [] ∧ d.all isDigit then some ((natOf (i ++ f) : K) * 10 ^ ((natOf d : Int) - f.length)) else none
    | 'e' :: '-' :: d =>
      if i ≠ [] ∧ d ≠ [] ∧ d.all isDigit then some ((natOf (i ++ f) : K) * 10 ^ (-(natOf d : Int) - f.length)) else none
    | _ => none
  | _ => none

/-- A number, with space before it. -/
def number {K : Type _} [Field K] (cs : List Char) : Option K :=
  match cs.dropWhile (fun c => decide (c = ' ')) with
  | '-' :: r => (unsigned r).map (fun v => -v)
  | r => unsigned r

end KMC.Literal
