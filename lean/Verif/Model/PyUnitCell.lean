import Mathlib.Algebra.Field.Basic
import Verif.Model.PyLattice

/-!
# Model of `KMCUnitCell` (python/src/KMCLib/CoreComponents/KMCUnitCell.py) and of the construction of a `KMCLattice`

The cell vectors and the basis points are sequences of sequences of numbers. That each argument is a sequence and
each number a `float` is not checked: the model takes typed arguments.
-/

namespace KMC

/-- KMCUnitCell.py:17-45: the data of a unit cell. -/
structure PyUnitCell (K : Type _) where
  a : Coord K
  b : Coord K
  c : Coord K
  basis : List (Coord K)
  deriving DecidableEq, Repr

namespace PyUnitCell

variable {K : Type _} [Field K] [LinearOrder K]

/-- The body of the loop of CheckUtilities.py:98-109: three numbers for each coordinate. -/
def checkCoordinate (row : List K) : M (Coord K) :=
  match row with
  | [x, y, z] => .ok ⟨x, y, z⟩
  | _ => .error .exception

/-- CheckUtilities.py:80-112 checkCoordinateList. -/
def checkCoordinateList (rows : List (List K)) : M (List (Coord K)) := do
  if rows.length < 1 then
    .error .exception
  mapMM checkCoordinate rows

/-- `numpy.linalg.det` of the transposed cell vectors (CheckUtilities.py:71-72), in exact arithmetic. -/
def determinant (a b c : Coord K) : K :=
  a.x * (b.y * c.z - c.y * b.z) - b.x * (a.y * c.z - c.y * a.z) + c.x * (a.y * b.z - b.y * a.z)

/-- CheckUtilities.py:41-77 checkCellVectors. A `numpy.ndarray` is not passed through `checkCoordinateList`; its shape is
checked all the same. -/
def checkCellVectors (rows : List (List K)) : M (Coord K × Coord K × Coord K) := do
  let l ← checkCoordinateList rows
  match l with
  | [a, b, c] =>
    if determinant a b c < 1 / 100000 then .error .exception else .ok (a, b, c)
  | _ => .error .exception

/-- KMCUnitCell.py:42: the test of one basis point. -/
def fractional (p : Coord K) : Bool :=
  [p.x, p.y, p.z].all fun v => decide (v < 1) && decide (v ≥ 0)

/-- KMCUnitCell.py:20-45 __init__. -/
def make (cell basis : List (List K)) : M (PyUnitCell K) := do
  let v ← checkCellVectors cell
  let b ← checkCoordinateList basis
  if b.all fractional = false then
    .error .exception
  return ⟨v.1, v.2.1, v.2.2, b⟩

/-- KMCUnitCell.py:63-69 transformToCartesian: the row `r` times the matrix of the cell vectors. -/
def toCartesian (u : PyUnitCell K) (r : Coord K) : Coord K :=
  ⟨r.x * u.a.x + r.y * u.b.x + r.z * u.c.x,
   r.x * u.a.y + r.y * u.b.y + r.z * u.c.y,
   r.x * u.a.z + r.y * u.b.z + r.z * u.c.z⟩

end PyUnitCell

namespace PyLattice

variable {K : Type _}

/-- KMCLattice.py:85-107 __checkPeriodic on a sequence of bools (`none`: argument not given). -/
def checkPeriodic (p : Option (List Bool)) : M (Bool × Bool × Bool) :=
  match p with
  | none => .ok (true, true, true)
  | some [a, b, c] => .ok (a, b, c)
  | some _ => .error .exception

/-- KMCLattice.py:22-54 __init__. The sites are given by `sites`. -/
def make (u : PyUnitCell K) (repetitions : Option (List Int)) (periodic : Option (List Bool)) : M (PyLattice K) := do
  let r ← checkRepetitions repetitions
  let p ← checkPeriodic periodic
  return ⟨u.basis, r.1, r.2.1, r.2.2, p.1, p.2.1, p.2.2⟩

end PyLattice
end KMC
