import Verif.Spec.Lattice
import Verif.Lemmas.Order
import Verif.Lemmas.Sites
import Verif.Model.PyLattice

/-!
# Processes whose coordinates are at sites
-/

namespace KMC

variable {K : Type _} [Field K] [LinearOrder K] [FloorRing K]

/-- Within `r` cells of site `s` there is a site at the displacement `d`, through periodic boundaries where there
are some. -/
def Sees (P : PyLattice K) (r s : Nat) (d : Coord K) : Prop :=
  ∃ t ∈ P.map.neighbourIndices s r, ∃ cs ct, P.sites[s]? = some cs ∧ P.sites[t]? = some ct ∧ d = P.map.wrap (ct - cs)

/-- The site number `b` of the cell in the middle of the lattice. -/
def central (P : PyLattice K) (b : Nat) : Nat := P.map.siteNo ⟨P.repA / 2, P.repB / 2, P.repC / 2, b⟩

/-- All coordinates are those of sites around the middle of the lattice, and nothing there coincides only up to the
tolerance. -/
structure Placed (dist : Coord K → K) (P : PyLattice K) (r b : Nat) (cs : List (Coord K)) : Prop where
  there : ∀ c ∈ cs, Sees P r (central P b) c
  clear : ∀ c d, Sees P r (central P b) c → Sees P r (central P b) d → ptSame (dist c) c (dist d) d = true → c = d
  distances : Separated (fun x => ∃ d, Sees P r (central P b) d ∧ x = dist d)

end KMC
