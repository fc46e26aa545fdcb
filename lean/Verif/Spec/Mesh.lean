import Verif.Spec.Robust
import Verif.Model.PyLattice
import Mathlib.Data.Real.Archimedean

/-!
# Coordinates that are multiples of `1 / q`
-/

namespace KMC

/-- A multiple of `1 / q`. -/
def Mesh (q : Nat) (x : ℝ) : Prop := ∃ n : Int, x * q = n

/-- All components are multiples of `1 / q`. -/
structure Coord.Mesh (q : Nat) (c : Coord ℝ) : Prop where
  x : KMC.Mesh q c.x
  y : KMC.Mesh q c.y
  z : KMC.Mesh q c.z

/-- All points of the basis and of the processes are multiples of `1 / q`, the processes reach at most `r` cells, periodic axes have
at least `2 r + 3` cells, and no number is larger than `B`. The first point of each process is the origin, which is how the front end
hands them over. -/
structure OnMesh (q r : Nat) (B : ℝ) (P : PyLattice ℝ) (gs : List (Ingredients ℝ)) : Prop where
  q_pos : 0 < q
  r_pos : 1 ≤ r
  basis : ∀ b ∈ P.basis, b.Mesh q
  room : (P.perA = true → 2 * r + 3 ≤ P.repA) ∧ (P.perB = true → 2 * r + 3 ≤ P.repB) ∧ (P.perC = true → 2 * r + 3 ≤ P.repC)
  cells : (P.repA : ℝ) ≤ B ∧ (P.repB : ℝ) ≤ B ∧ (P.repC : ℝ) ≤ B
  reach : (r : ℝ) + 1 ≤ B
  points : ∀ g ∈ gs, ∀ c ∈ g.first.coords, c.Mesh q ∧ axisRange c.x ≤ r ∧ axisRange c.y ≤ r ∧ axisRange c.z ≤ r
  first : ∀ g ∈ gs, ∀ o, g.first.coords[0]? = some o → o = 0
  moves : ∀ g ∈ gs, ∀ m ∈ g.moves, m.2.Mesh q ∧ m.2.Bounded B

end KMC
