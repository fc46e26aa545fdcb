import Verif.Spec.Placed
import Verif.Spec.Reverse

/-!
# Processes that undo each other around different central sites
-/

namespace KMC

variable {K : Type _} [Field K] [LinearOrder K]

/-- Site `t` is at the displacement `d` from site `s`, through periodic boundaries where there are some. -/
def PyLattice.At (P : PyLattice K) (s : Nat) (d : Coord K) (t : Nat) : Prop :=
  ∃ cs ct, P.sites[s]? = some cs ∧ P.sites[t]? = some ct ∧ P.map.wrap (ct - cs) = d

/-- The second entry, of a process whose central site is displaced by `δ`, is at the same place, asks for what the first
one leaves of what it asks for, and takes back its changes. -/
structure PEntry.UndoneAt (δ : Coord K) (e f : PEntry K) : Prop where
  coord : f.coord = e.coord - δ
  asks : f.matchTypes = List.zipWith (· + ·) e.matchTypes e.updateTypes
  changes : f.updateTypes = e.updateTypes.map (fun u => -u)

/-- The second process is the reverse of the first one, given around the place `δ` of the first one. -/
structure Proc.UndoneFrom (δ : Coord K) (p q : Proc K) : Prop where
  there : ∀ e ∈ p.matchList, ∃ f ∈ q.matchList, e.UndoneAt δ f
  back : ∀ f ∈ q.matchList, ∃ e ∈ p.matchList, e.UndoneAt δ f

/-- The model is on the sites of a lattice whose basis points are distinct and inside the cell, and it inserts wildcards. -/
structure OnSites (P : PyLattice K) (env : Env K) (cfg : Config K) : Prop where
  lattice : env.L = P.map
  coords : cfg.coords = P.sites
  basis : ∀ b ∈ P.basis, (0 ≤ b.x ∧ b.x < 1) ∧ (0 ≤ b.y ∧ b.y < 1) ∧ (0 ≤ b.z ∧ b.z < 1)
  distinct : P.basis.Nodup
  wildcards : env.implicitWildcards = true

/-- The process has the single basis site `b`, distinct places, sorted, which are at sites. -/
structure Proc.Sited [FloorRing K] (dist : Coord K → K) (P : PyLattice K) (r b : Nat) (p : Proc K) : Prop where
  basis : p.basisSites = [b]
  sorted : ∃ entries, p.matchList = sortP entries ∧ (entries.map (·.coord)).Nodup ∧ ∀ e ∈ entries, e.distance = dist e.coord
  placed : Placed dist P r b (p.matchList.map (·.coord))

/-- All sites of the same kind see the same surroundings: every axis is periodic and not shorter than the range, or one
cell long. -/
def PyLattice.Uniform (P : PyLattice K) (r : Nat) : Prop :=
  ((P.perA = true ∧ r ≤ P.repA) ∨ P.repA = 1) ∧ ((P.perB = true ∧ r ≤ P.repB) ∨ P.repB = 1) ∧
    ((P.perC = true ∧ r ≤ P.repC) ∨ P.repC = 1)

/-- The displacement `δ` leads from sites with number `b` in their cell to sites with number `b'`. -/
def PyLattice.Joins (P : PyLattice K) (b b' : Nat) (δ : Coord K) : Prop :=
  ∃ c c', P.basis[b]? = some c ∧ P.basis[b']? = some c' ∧
    ∃ i j k : Int, δ = c' - c + ⟨(i : K), (j : K), (k : K)⟩

end KMC
