import Verif.Model.Basic

/-!
# Model of `Coordinate` (c++/src/coordinate.h)
-/

namespace KMC

/-- c++/src/coordinate.h:22-174 class Coordinate (fields x_, y_, z_). -/
@[ext]
structure Coord (K : Type _) where
  x : K
  y : K
  z : K
  deriving DecidableEq, Repr

namespace Coord

variable {K : Type _}

section
variable [Field K]

/-- c++/src/coordinate.h:263-268 operator+ (and 273-278 operator+=). -/
def add (a b : Coord K) : Coord K := ⟨a.x + b.x, a.y + b.y, a.z + b.z⟩

/-- c++/src/coordinate.h:253-258 operator-. -/
def sub (a b : Coord K) : Coord K := ⟨a.x - b.x, a.y - b.y, a.z - b.z⟩

/-- c++/src/coordinate.h:283-288 operator*. -/
def smul (a : Coord K) (s : K) : Coord K := ⟨a.x * s, a.y * s, a.z * s⟩

/-- c++/src/coordinate.h:199-202 dot. -/
def dot (a b : Coord K) : K := a.x * b.x + a.y * b.y + a.z * b.z

/-- c++/src/coordinate.h:191-194 outerProdDiag. -/
def outerProdDiag (a b : Coord K) : Coord K := ⟨a.x * b.x, a.y * b.y, a.z * b.z⟩

/-- The argument of the square root in norm (183-186), distance (331-341) and
distanceToOrigin (346-356) of c++/src/coordinate.h. The root itself is a parameter of
the definitions that use it. -/
def normSq (a : Coord K) : K := a.x * a.x + a.y * a.y + a.z * a.z

/-- Coordinate(0.0, 0.0, 0.0), also c++/src/coordinate.cpp default constructor. -/
def zero : Coord K := ⟨0, 0, 0⟩

instance : Add (Coord K) := ⟨add⟩
instance : Sub (Coord K) := ⟨sub⟩
instance : Zero (Coord K) := ⟨zero⟩
end

section
variable [LinearOrder K]

/-- c++/src/coordinate.h:207-232 operator<. -/
def lt (a b : Coord K) : Bool :=
  if a.x < b.x then true
  else if a.x > b.x then false
  else if a.y < b.y then true
  else if a.y > b.y then false
  else decide (a.z < b.z)

/-- c++/src/coordinate.h:237-240 operator==. -/
def eqOp (a b : Coord K) : Bool := !(lt a b) && !(lt b a)

/-- c++/src/coordinate.h:245-248 operator!=. -/
def neOp (a b : Coord K) : Bool := !(eqOp a b)
end

/-- c++/src/coordinate.h:293-307 operator[] (any index is accepted). -/
def get (a : Coord K) (i : Int) : K :=
  if i < 1 then a.x else if i < 2 then a.y else a.z

end Coord
end KMC
