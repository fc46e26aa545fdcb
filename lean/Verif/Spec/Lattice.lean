import Verif.Model.PyLattice

/-!
# Specification vocabulary for lattices

What a lattice is, independently of how the code numbers and searches it.
-/

namespace KMC.Spec

open KMC

/-- The address of a site: its cell along the three axes and its position in the basis. -/
structure Address where
  a : Nat
  b : Nat
  c : Nat
  l : Nat
  deriving DecidableEq, Repr

/-- The addresses that exist on a lattice. -/
def Address.Valid (L : LatticeMap) (s : Address) : Prop :=
  s.a < L.repA ∧ s.b < L.repB ∧ s.c < L.repC ∧ s.l < L.nBasis

/-- Two cell numbers along one axis of `rep` cells are at most `r` cells apart, measured through
the boundary (any number of times) exactly when the axis is periodic. -/
def NearOnAxis (per : Bool) (rep r : Nat) (c d : Nat) : Prop :=
  if per then ∃ m : Int, |(d : Int) - c + m * rep| ≤ r
  else |(d : Int) - c| ≤ r

/-- Two sites are in each other's neighbourhood of `r` shells of cells. -/
def Near (L : LatticeMap) (r : Nat) (s t : Address) : Prop :=
  NearOnAxis L.perA L.repA r s.a t.a ∧
  NearOnAxis L.perB L.repB r s.b t.b ∧
  NearOnAxis L.perC L.repC r s.c t.c

/-- Along an axis, `b` is `a` up to a whole number of boxes of length `rep` if the axis is periodic,
and up to `tol`. -/
def AlongAxis {K : Type _} [Field K] [LinearOrder K] (per : Bool) (rep : Nat) (tol a b : K) : Prop :=
  ∃ m : Int, (per = false → m = 0) ∧ |b - a - m * rep| ≤ tol

/-- The two coordinates are the same up to whole boxes along periodic axes, and up to `tol`. -/
def SameInBox {K : Type _} [Field K] [LinearOrder K] (L : LatticeMap) (tol : K) (x y : Coord K) : Prop :=
  AlongAxis L.perA L.repA tol x.x y.x ∧ AlongAxis L.perB L.repB tol x.y y.y ∧
  AlongAxis L.perC L.repC tol x.z y.z

end KMC.Spec
