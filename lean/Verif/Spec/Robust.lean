import Verif.Model.RoundedGeometry

/-!
# Geometries that leave room for rounding
-/

namespace KMC

variable {K : Type _} [Field K] [LinearOrder K]

/-- A relative error of at most `u` in every operation. -/
structure Within (fl : K → K) (u : K) : Prop where
  nonneg : 0 ≤ u
  small : u ≤ 1 / 8
  err : ∀ x, |fl x - x| ≤ u * |x|

/-- The difference `x` is not within `μ` of the tolerance 0.00001. -/
def ClearOf (μ x : K) : Prop := |x| < 1 / 100000 - μ ∨ 1 / 100000 + μ < |x|

/-- The stored version of a coordinate: each component is converted. -/
def Coord.conv (R : Coord (K → K)) (c : Coord K) : Coord K := ⟨R.x c.x, R.y c.y, R.z c.z⟩

/-- A conversion changes numbers up to `B` by at most `δ`. -/
structure Converts (δ B : K) (R : Coord (K → K)) : Prop where
  x : ∀ v, |v| ≤ B → |R.x v - v| ≤ δ
  y : ∀ v, |v| ≤ B → |R.y v - v| ≤ δ
  z : ∀ v, |v| ≤ B → |R.z v - v| ≤ δ

/-- All components differ by at most `δ`. -/
structure Coord.Close (δ : K) (c c' : Coord K) : Prop where
  x : |c'.x - c.x| ≤ δ
  y : |c'.y - c.y| ≤ δ
  z : |c'.z - c.z| ≤ δ

/-- All components are clear of the tolerance. -/
structure Coord.Clear (μ : K) (c : Coord K) : Prop where
  x : ClearOf μ c.x
  y : ClearOf μ c.y
  z : ClearOf μ c.z

/-- All components are at most `B`. -/
structure Coord.Bounded (B : K) (c : Coord K) : Prop where
  x : |c.x| ≤ B
  y : |c.y| ≤ B
  z : |c.z| ≤ B

/-- The computed length of a coordinate with errors of at most `δ` in components of at most `B` is within `ε` of the exact one. -/
def LengthClose (δ ε B : K) (dist len : Coord K → K) : Prop :=
  ∀ c c' : Coord K, c.Bounded B → c.Close δ c' → |len c' - dist c| ≤ ε

/-- On a periodic axis with `rep` cells the difference `d` is not within `δ` of half the length. -/
def OffHalf (δ : K) (periodic : Bool) (rep : Nat) (d : K) : Prop :=
  periodic = true → δ < |d - rep / 2| ∧ δ < |d + rep / 2|

/-- Two components are from the same coordinate, or the differences `d`, `e` they lead to differ by more than `2 δ`. -/
def SetApart (δ x y d e : K) : Prop := x = y ∨ 2 * δ < |d - e|

/-- The geometry of the lattice and the processes leaves room for errors of `δ` in the components of relative coordinates and
`μ` around the tolerance. Only exact numbers occur. -/
structure Robust (δ μ B : K) (L : LatticeMap) (dist : Coord K → K) (coords : List (Coord K)) (r : Nat) (procs : List (Proc K)) :
    Prop where
  size : ∀ c ∈ coords, c.Bounded B
  cells : (L.repA : K) ≤ B ∧ (L.repB : K) ≤ B ∧ (L.repC : K) ≤ B
  half : ∀ (i a : Nat) ci ca, coords[i]? = some ci → coords[a]? = some ca → a ∈ L.neighbourIndices i r →
    OffHalf δ L.perA L.repA (ca.x - ci.x) ∧ OffHalf δ L.perB L.repB (ca.y - ci.y) ∧ OffHalf δ L.perC L.repC (ca.z - ci.z)
  distances : ∀ (i a b : Nat) ci ca cb, coords[i]? = some ci → coords[a]? = some ca → coords[b]? = some cb →
    a ∈ L.neighbourIndices i r → b ∈ L.neighbourIndices i r →
    ClearOf μ (dist (L.wrap (cb - ci)) - dist (L.wrap (ca - ci)))
  apart : ∀ (i a b : Nat) ci ca cb, coords[i]? = some ci → coords[a]? = some ca → coords[b]? = some cb →
    a ∈ L.neighbourIndices i r → b ∈ L.neighbourIndices i r →
    SetApart δ ca.x cb.x (L.wrap (ca - ci)).x (L.wrap (cb - ci)).x ∧ SetApart δ ca.y cb.y (L.wrap (ca - ci)).y (L.wrap (cb - ci)).y ∧
      SetApart δ ca.z cb.z (L.wrap (ca - ci)).z (L.wrap (cb - ci)).z
  points : ∀ p ∈ procs, ∀ e ∈ p.matchList, ∀ (i a : Nat) ci ca, coords[i]? = some ci → coords[a]? = some ca →
    a ∈ L.neighbourIndices i r → ClearOf μ (dist (L.wrap (ca - ci)) - e.distance) ∧ (L.wrap (ca - ci) - e.coord).Clear μ

section
variable [FloorRing K]

/-- What a process is made from. -/
structure Ingredients (K : Type _) where
  first : Config K
  second : Config K
  info : List (List (String × Int))
  rate : K
  basisSites : List Nat
  moves : List (Nat × Coord K)
  number : Nat

/-- The points of a process leave room for errors: distances from its first point, components of the points, the numbers of cells
they need and the places that move vectors lead to. -/
structure RobustPoints (fl : K → K) (R : Coord (K → K)) (δ μ B : K) (dist : Coord K → K) (g : Ingredients K) : Prop where
  size : ∀ c ∈ g.first.coords, c.Bounded B
  moveSize : ∀ m ∈ g.moves, m.2.Bounded B
  distances : ∀ o a b, g.first.coords[0]? = some o → a ∈ g.first.coords → b ∈ g.first.coords →
    ClearOf μ (dist (b - o) - dist (a - o))
  apart : ∀ a ∈ g.first.coords, ∀ b ∈ g.first.coords,
    SetApart δ a.x b.x a.x b.x ∧ SetApart δ a.y b.y a.y b.y ∧ SetApart δ a.z b.z a.z b.z
  ranges : ∀ c ∈ g.first.coords, InDouble.axisRange fl (R.x c.x) = axisRange c.x ∧
    InDouble.axisRange fl (R.y c.y) = axisRange c.y ∧ InDouble.axisRange fl (R.z c.z) = axisRange c.z
  targets : ∀ m ∈ g.moves, ∀ a ∈ g.first.coords, ∀ b ∈ g.first.coords,
    dist (b - (a + m.2)) < 1 / 1000000 - μ ∨ 1 / 1000000 + μ < dist (b - (a + m.2))

end
end KMC
