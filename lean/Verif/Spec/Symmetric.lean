import Verif.Spec.Elsewhere
import Verif.Spec.Run

/-!
# Images of models under symmetries: mirror images and exchanged axes
-/

namespace KMC

variable {K : Type _} [Field K] [LinearOrder K]

/-- The second entry is at the image of the place and asks for and changes the same. -/
structure PEntry.Image (g : Coord K → Coord K) (e f : PEntry K) : Prop where
  coord : f.coord = g e.coord
  asks : f.matchTypes = e.matchTypes
  changes : f.updateTypes = e.updateTypes

/-- The second process is the image of the first one. The order of the entries is free. -/
structure Proc.Image (g : Coord K → Coord K) (p q : Proc K) : Prop where
  there : ∀ e ∈ p.matchList, ∃ f ∈ q.matchList, e.Image g f
  back : ∀ f ∈ q.matchList, ∃ e ∈ p.matchList, e.Image g f
  rate : q.rate = p.rate

/-- The map of sites `τ` is one-to-one from the sites of one lattice to those of the other. -/
structure PyLattice.SiteMap (P P' : PyLattice K) (τ : Nat → Nat) : Prop where
  size : P'.map.nSites = P.map.nSites
  lt : ∀ s < P.map.nSites, τ s < P.map.nSites
  inj : ∀ s < P.map.nSites, ∀ t < P.map.nSites, τ s = τ t → s = t

/-- The images of the sites at the displacement `d` of sites with number `b` in their cell are at the displacement `g d`, and
only these. -/
def PyLattice.Carries (P P' : PyLattice K) (τ : Nat → Nat) (g : Coord K → Coord K) (b : Nat) (d : Coord K) : Prop :=
  ∀ s < P.map.nSites, ∀ t < P.map.nSites, P.map.basisSite s = b → (P'.At (τ s) (g d) (τ t) ↔ P.At s d t)

/-- The second configuration has on the images of the sites what the first one has on the sites. -/
def PyLattice.Mapped {α : Type _} (P : PyLattice K) (τ : Nat → Nat) (types types' : List α) : Prop :=
  ∀ s < P.map.nSites, types'[τ s]? = types[s]?

/-- The mirror image of a lattice along the first axis, inside the box. The coordinate `x` becomes `-x`, up to whole boxes. -/
def PyLattice.mirror (P : PyLattice K) : PyLattice K :=
  { P with basis := P.basis.map fun c => ⟨if c.x = 0 then 0 else 1 - c.x, c.y, c.z⟩ }

/-- The mirror image of a site. -/
def PyLattice.mirrorSite (P : PyLattice K) (s : Nat) : Nat :=
  P.map.siteNo ⟨if (P.basis.getD (P.map.basisSite s) 0).x = 0 then (P.repA - P.map.cellA s) % P.repA else P.repA - 1 - P.map.cellA s,
    P.map.cellB s, P.map.cellC s, P.map.basisSite s⟩

def Coord.mirror (c : Coord K) : Coord K := ⟨-c.x, c.y, c.z⟩

/-- The lattice with the first two axes exchanged. -/
def PyLattice.swapXY (P : PyLattice K) : PyLattice K :=
  { basis := P.basis.map fun c => ⟨c.y, c.x, c.z⟩, repA := P.repB, repB := P.repA, repC := P.repC, perA := P.perB, perB := P.perA,
    perC := P.perC }

def PyLattice.swapXYSite (P : PyLattice K) (s : Nat) : Nat :=
  P.swapXY.map.siteNo ⟨P.map.cellB s, P.map.cellA s, P.map.cellC s, P.map.basisSite s⟩

def Coord.swapXY (c : Coord K) : Coord K := ⟨c.y, c.x, c.z⟩

/-- The lattice with the last two axes exchanged. -/
def PyLattice.swapYZ (P : PyLattice K) : PyLattice K :=
  { basis := P.basis.map fun c => ⟨c.x, c.z, c.y⟩, repA := P.repA, repB := P.repC, repC := P.repB, perA := P.perA, perB := P.perC,
    perC := P.perB }

def PyLattice.swapYZSite (P : PyLattice K) (s : Nat) : Nat :=
  P.swapYZ.map.siteNo ⟨P.map.cellA s, P.map.cellC s, P.map.cellB s, P.map.basisSite s⟩

def Coord.swapYZ (c : Coord K) : Coord K := ⟨c.x, c.z, c.y⟩

end KMC
