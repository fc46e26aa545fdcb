import Verif.Model.Process
import Mathlib.Data.List.Sort

/-!
# Model of `KMCProcess`
(python/src/KMCLib/CoreComponents/KMCProcess.py, KMCBaseProcess.py,
python/src/KMCLib/Utilities/CoordinateUtilities.py:36-91,
and the part of KMCInteractions.py that makes the back end processes)

The arguments are typed: a list of points, lists of names, an optional list of (index, vector) pairs.
The checks that a Python value has one of these types are not modelled, the checks on values are.
-/

namespace KMC

/-- KMCBaseProcess.py:53-71 and KMCProcess.py: the data of a process. -/
structure PyProc (K : Type _) where
  coords : List (Coord K)
  before : List String
  after : List String
  moves : List (Nat × Coord K)
  basisSites : List Nat
  rate : K
  deriving DecidableEq

namespace PyProc

/-- Python's index rule on a list of length `n`: negative indices count from the end. -/
def pyIndex (n : Nat) (i : Int) : M Nat :=
  if 0 ≤ i then (if i < n then .ok i.toNat else .error .indexError)
  else if 0 ≤ i + n then .ok (i + n).toNat else .error .indexError

/-- `l[i]` in Python. -/
def pyGet {α : Type _} (l : List α) (i : Int) : M α := do
  let j ← pyIndex l.length i
  match l[j]? with
  | some x => .ok x
  | none => .error .indexError

/-- KMCProcess.py:113-119: the wildcards are in the same places. -/
def wildcardsFixed (before after : List String) : Bool :=
  decide (before.map (fun e => decide (e = "*")) = after.map (fun e => decide (e = "*")))

/-- KMCProcess.py:212-231: the places where the elements differ. -/
def differing (before after : List String) : List Nat :=
  (List.range before.length).filter fun i => decide (before[i]? ≠ after[i]?)

variable {K : Type _} [Field K]

/-- CoordinateUtilities.py:14-33 centerCoordinates with index 0, after the check that there is a
coordinate (CheckUtilities.py:96-98). -/
def centre (coords : List (Coord K)) : M (List (Coord K)) :=
  match coords with
  | [] => .error .exception
  | c :: _ => .ok (coords.map (fun x => x - c))

/-- KMCProcess.py:204-245 __reconstructMoveVectors. -/
def reconstruct (coords : List (Coord K)) (before after : List String) : M (Option (List (Int × Coord K))) :=
  match differing before after with
  | [i, j] =>
    if before[i]? = after[j]? ∧ after[i]? = before[j]? then do
      let a ← pyGet coords i
      let b ← pyGet coords j
      return some [((i : Int), b - a), ((j : Int), a - b)]
    else .ok none
  | _ => .ok none

variable [LinearOrder K]

/-- KMCProcess.py:150-152 the distance used to find the target of a move. -/
def taxi (c : Coord K) : K := |c.x| + |c.y| + |c.z|

/-- KMCProcess.py:149-156: the first coordinate at the end of a move. -/
def landing (coords : List (Coord K)) (target : Coord K) : Option Nat :=
  coords.findIdx? (fun c => decide (taxi (c - target) < 1 / 100000000))

/-- KMCProcess.py:144-165 one move; the state is the list of moved elements. -/
def tryMove (coords : List (Coord K)) (before after : List String) (moved : List String) (m : Int × Coord K) :
    M (List String) := do
  let old ← pyGet coords m.1
  match landing coords (old + m.2) with
  | none => .error .exception
  | some j => do
    let e ← pyGet before m.1
    let f ← pyGet after j
    if e ≠ f then .error .exception
    else return moved.set j e

/-- KMCProcess.py:125-172 __checkValidMoveVectors. -/
def checkMoves (coords : List (Coord K)) (before after : List String) (moves : Option (List (Int × Coord K))) :
    M (List (Int × Coord K)) := do
  let ms ← match moves with
    | some ms => .ok (some ms)
    | none => reconstruct coords before after
  match ms with
  | none => .ok []
  | some ms => do
    let moved ← loopM (tryMove coords before after) ms before
    if after ≠ moved then .error .exception else return ms

/-- One row of the array that is sorted, CoordinateUtilities.py:61-76. -/
structure Row (K : Type _) where
  coord : Coord K
  before : String
  after : String
  index : Nat
  deriving DecidableEq

/-- The order of CoordinateUtilities.py:79: distance from the first coordinate (which is the origin; here
the square of the distance), type before, x, y, z; numpy breaks ties with the remaining fields. -/
def Row.le (a b : Row K) : Bool :=
  if a.coord.normSq ≠ b.coord.normSq then decide (a.coord.normSq < b.coord.normSq)
  else if a.before ≠ b.before then decide (a.before < b.before)
  else if a.coord.x ≠ b.coord.x then decide (a.coord.x < b.coord.x)
  else if a.coord.y ≠ b.coord.y then decide (a.coord.y < b.coord.y)
  else if a.coord.z ≠ b.coord.z then decide (a.coord.z < b.coord.z)
  else if a.after ≠ b.after then decide (a.after < b.after)
  else decide (a.index ≤ b.index)

/-- CoordinateUtilities.py:71-76. -/
def rows (coords : List (Coord K)) (before after : List String) : List (Row K) :=
  ((coords.zip (before.zip after)).zipIdx).map fun r => ⟨r.1.1, r.1.2.1, r.1.2.2, r.2⟩

/-- CoordinateUtilities.py:79. -/
def sortRows (l : List (Row K)) : List (Row K) := l.insertionSort (fun a b => Row.le a b = true)

/-- KMCProcess.py:263-273 the new index of a moved atom. -/
def newIndex (sorted : List (Row K)) (i : Int) : M Nat := do
  let old ← pyIndex sorted.length i
  match sorted.findIdx? (fun r => decide (r.index = old)) with
  | some j => .ok j
  | none => .error .exception

/-- KMCProcess.py:261-284 the move vectors with the new indices, sorted by index. -/
def sortMoves (sorted : List (Row K)) (moves : List (Int × Coord K)) : M (List (Nat × Coord K)) := do
  let l ← mapMM (fun m : Int × Coord K => do
    let j ← newIndex sorted m.1
    return (j, m.2)) moves
  return l.insertionSort (fun a b => a.1 ≤ b.1)

/-- KMCProcess.py:28-102 the constructor. -/
def make (coords : List (Coord K)) (before after : List String) (moves : Option (List (Int × Coord K)))
    (basisSites : List Int) (rate : K) : M (PyProc K) := do
  let cs ← centre coords
  if basisSites = [] ∨ basisSites.any (fun b => decide (b < 0)) then .error .exception
  else if rate < 0 then .error .exception
  else if before.length ≠ coords.length ∨ after.length ≠ coords.length then .error .exception
  else if wildcardsFixed before after = false then .error .exception
  else if before = after then .error .exception
  else do
    let ms ← checkMoves cs before after moves
    let sorted := sortRows (rows cs before after)
    let ms' ← sortMoves sorted ms
    return { coords := sorted.map (·.coord), before := sorted.map (·.before), after := sorted.map (·.after),
             moves := ms', basisSites := basisSites.map Int.toNat, rate := rate }

variable [FloorRing K]

/-- KMCInteractions.py:160-250 the back end process of a process, with KMCLocalConfiguration.py:92-110.
The coordinates are centred once more (KMCLocalConfiguration.py:68); basis sites that the lattice does
not have are dropped. -/
def backend (dist : Coord K → K) (pt : List (String × Nat)) (nBasis : Nat) (number : Nat) (p : PyProc K) :
    M (Proc K) :=
  if (p.before ++ p.after).all (fun e => decide (e ∈ pt.map Prod.fst)) = false then .error .exception
  else do
    let cs ← centre p.coords
    let first ← Config.mk' cs (p.before.map (fun e => [e])) pt
    let second ← Config.mk' cs (p.after.map (fun e => [e])) pt
    mkProcess dist first second [] p.rate (p.basisSites.filter (fun b => decide (b < nBasis))) p.moves number

end PyProc
end KMC
