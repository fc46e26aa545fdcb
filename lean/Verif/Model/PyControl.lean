import Verif.Model.Basic

/-!
# Model of `KMCControlParameters` (python/src/KMCLib/CoreComponents/KMCControlParameters.py)

Arguments are modelled after the type checks: integers for the integer arguments, numbers for the float
argument, `none` where Python has `None`. Floats that are not numbers (nan) are not modelled.
-/

namespace KMC

/-- The parameters of a run, KMCControlParameters.py:75-114. -/
structure PyControl (K : Type _) where
  steps : Nat
  dump : Option Nat
  analyse : Nat
  dumpTime : Option K
  timeSeed : Bool
  seed : Nat
  rng : String
  deriving DecidableEq, Repr

namespace PyControl

/-- python/src/KMCLib/Utilities/CheckUtilities.py:229-257 checkPositiveInteger. -/
def checkPositiveInteger (parameter : Option Int) (default : Int) : M Nat :=
  let p := parameter.getD default
  if p < 0 then .error .exception else .ok p.toNat

/-- KMCControlParameters.py:80-84. -/
def checkDump (dump : Option Int) : M (Option Nat) :=
  match dump with
  | none => .ok none
  | some d => do
    let d ← checkPositiveInteger (some d) 1
    return some d

variable {K : Type _} [Field K] [LinearOrder K]

/-- KMCControlParameters.py:95-99. -/
def checkDumpTime (dumpTime : Option K) : M (Option K) :=
  match dumpTime with
  | none => .ok none
  | some t => if t ≤ 0 then .error .exception else .ok (some t)

/-- KMCControlParameters.py:104-109. -/
def checkBoth (dump : Option Nat) (dumpTime : Option K) : M (Option Nat) :=
  match dump, dumpTime with
  | some _, some _ => .error .exception
  | none, none => .ok (some 1)
  | d, _ => .ok d

/-- KMCControlParameters.py:114-132 __checkRngType. -/
def checkRng (rng : Option String) : M String :=
  let r := rng.getD "MT"
  if r ∈ ["MT", "MINSTD", "RANLUX24", "RANLUX48", "DEVICE"] then .ok r else .error .exception

/-- KMCControlParameters.py:19-112 the constructor. -/
def make (steps dump analyse seed : Option Int) (dumpTime : Option K) (rng : Option String) : M (PyControl K) := do
  let n ← checkPositiveInteger steps 0
  let d ← checkDump dump
  let a ← checkPositiveInteger analyse 1
  let s ← checkPositiveInteger seed 1
  let t ← checkDumpTime dumpTime
  let d' ← checkBoth d t
  let r ← checkRng rng
  return { steps := n, dump := d', analyse := a, dumpTime := t, timeSeed := seed.isNone, seed := s, rng := r }

end PyControl
end KMC
