import Verif.Model.RoundedGeometry
import Verif.Model.PyLattice
import Verif.Model.PyProcess

/-!
# Coordinates in the front end, with rounding

`numpy` arrays hold `double`s: decimal numbers are rounded when they are read, and so is every sum and difference.
-/

namespace KMC
namespace InDouble

variable {K : Type _} [Field K]

/-- A coordinate as it is read, CheckUtilities.py:101 (`numpy.array`). -/
def read (fl : K → K) (c : Coord K) : Coord K := ⟨fl c.x, fl c.y, fl c.z⟩

/-- KMCLattice.py:109-130 __generateLatticeSites: `b+translation`. -/
def sites (fl : K → K) (P : PyLattice K) : List (Coord K) :=
  (List.range P.repA).flatMap fun (i : Nat) =>
    (List.range P.repB).flatMap fun (j : Nat) =>
      (List.range P.repC).flatMap fun (k : Nat) =>
        P.basis.map fun b => add fl (read fl b) ⟨(i : K), (j : K), (k : K)⟩

/-- CoordinateUtilities.py:14-33 centerCoordinates with index 0. -/
def centre (fl : K → K) (coords : List (Coord K)) : M (List (Coord K)) :=
  match coords with
  | [] => .error .exception
  | c :: _ => .ok (coords.map fun x => sub fl (read fl x) (read fl c))

/-- KMCProcess.py:204-245 __reconstructMoveVectors, on stored coordinates. -/
def reconstruct (fl : K → K) (coords : List (Coord K)) (before after : List String) : M (Option (List (Int × Coord K))) :=
  match PyProc.differing before after with
  | [i, j] =>
    if before[i]? = after[j]? ∧ after[i]? = before[j]? then do
      let a ← PyProc.pyGet coords i
      let b ← PyProc.pyGet coords j
      return some [((i : Int), sub fl b a), ((j : Int), sub fl a b)]
    else .ok none
  | _ => .ok none

variable [LinearOrder K]

/-- KMCProcess.py:150-151 the distance used to find the target of a move: `sum` starts from 0 and rounds after each addition. -/
def taxi (fl : K → K) (c : Coord K) : K := fl (fl (fl (0 + |c.x|) + |c.y|) + |c.z|)

/-- KMCProcess.py:149-156: the first coordinate at the end of a move; `1.0e-8` is the `double` next to it. -/
def landing (fl : K → K) (coords : List (Coord K)) (target : Coord K) : Option Nat :=
  coords.findIdx? (fun c => decide (taxi fl (sub fl c target) < fl (1 / 100000000)))

/-- KMCProcess.py:144-165 one move, on stored coordinates. -/
def tryMove (fl : K → K) (coords : List (Coord K)) (before after : List String) (moved : List String) (m : Int × Coord K) :
    M (List String) := do
  let old ← PyProc.pyGet coords m.1
  match landing fl coords (add fl old m.2) with
  | none => .error .exception
  | some j => do
    let e ← PyProc.pyGet before m.1
    let f ← PyProc.pyGet after j
    if e ≠ f then .error .exception
    else return moved.set j e

/-- KMCProcess.py:125-172 __checkValidMoveVectors, on stored coordinates. -/
def checkMoves (fl : K → K) (coords : List (Coord K)) (before after : List String) (moves : Option (List (Int × Coord K))) :
    M (List (Int × Coord K)) := do
  let ms ← match moves with
    | some ms => .ok (some ms)
    | none => reconstruct fl coords before after
  match ms with
  | none => .ok []
  | some ms => do
    let moved ← loopM (tryMove fl coords before after) ms before
    if after ≠ moved then .error .exception else return ms

end InDouble
end KMC
