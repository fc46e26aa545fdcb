import Verif.Model.LatticeMap

/-!
# Model of `KMCLattice` (python/src/KMCLib/CoreComponents/KMCLattice.py)
-/

namespace KMC

/-- KMCLattice.py: the data of a lattice (basis coordinates of the unit cell, repetitions,
periodicity). -/
structure PyLattice (K : Type _) where
  basis : List (Coord K)
  repA : Nat
  repB : Nat
  repC : Nat
  perA : Bool
  perB : Bool
  perC : Bool

namespace PyLattice

variable {K : Type _} [Field K]

/-- KMCLattice.py:172-196 _globalIndex. -/
def globalIndex (P : PyLattice K) (i j k b : Nat) : Nat :=
  i * P.repB * P.repC * P.basis.length + j * P.repC * P.basis.length + k * P.basis.length + b

/-- KMCLattice.py:109-130 __generateLatticeSites. -/
def sites (P : PyLattice K) : List (Coord K) :=
  (List.range P.repA).flatMap fun i =>
    (List.range P.repB).flatMap fun j =>
      (List.range P.repC).flatMap fun k =>
        P.basis.map fun b => b + ⟨(i : K), (j : K), (k : K)⟩

/-- KMCLattice.py:198-208 _map. -/
def map (P : PyLattice K) : LatticeMap :=
  ⟨P.basis.length, P.repA, P.repB, P.repC, P.perA, P.perB, P.perC⟩

/-- KMCLattice.py:56-83 __checkRepetitions on a sequence of integers (`none`: argument not given).
Type checks on the Python values are not modelled. -/
def checkRepetitions (r : Option (List Int)) : M (Nat × Nat × Nat) :=
  match r with
  | none => .ok (1, 1, 1)
  | some [a, b, c] =>
    if a < 1 ∨ b < 1 ∨ c < 1 then .error .exception else .ok (a.toNat, b.toNat, c.toNat)
  | some _ => .error .exception

end PyLattice
end KMC
