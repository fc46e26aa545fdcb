import Mathlib.Data.Rat.Floor
import Verif.Model.Coordinate

/-!
# Model of `LatticeMap` (c++/src/latticemap.h, c++/src/latticemap.cpp)

The static scratch vector `tmp_cell_indices__` (latticemap.cpp:35) is replaced by a
returned list. Cell counters are `Int`, site indices `Nat`.
-/

namespace KMC

/-- c++/src/latticemap.h:28-158 class LatticeMap (n_basis_, repetitions_, periodic_). -/
structure LatticeMap where
  nBasis : Nat
  repA : Nat
  repB : Nat
  repC : Nat
  perA : Bool
  perB : Bool
  perC : Bool
  deriving DecidableEq, Repr

namespace LatticeMap

/-- What the front end guarantees about every lattice map it builds: repetitions are at least
one (python/src/KMCLib/CoreComponents/KMCLattice.py:56-83) and the basis is not empty
(python/src/KMCLib/Utilities/CheckUtilities.py:80-112). -/
def WF (L : LatticeMap) : Prop :=
  0 < L.nBasis ∧ 0 < L.repA ∧ 0 < L.repB ∧ 0 < L.repC

instance (L : LatticeMap) : Decidable L.WF := by unfold WF; infer_instance

/-- Number of lattice sites, len(sites) in KMCLattice.py:109-130. -/
def nSites (L : LatticeMap) : Nat := L.repA * L.repB * L.repC * L.nBasis

/-- c++/src/latticemap.cpp:276-302 indexToCell. `double` arithmetic is exact (ℚ) here. -/
def indexToCell (L : LatticeMap) (index : Nat) : Int × Int × Int :=
  let eps : ℚ := 1 / 1000000000
  let idx : Int := (index / L.nBasis : Nat) + 1
  let factorI : Int := (L.repB : Int) * L.repC
  let ii : Int := truncInt (((idx : ℚ) - eps) / (factorI : ℚ))
  let ci : Int := ii * factorI
  let factorJ : Int := L.repC
  let idxJ : Int := idx - ci
  let jj : Int := truncInt (((idxJ : ℚ) - eps) / (factorJ : ℚ))
  let cij : Int := ci + jj * factorJ
  let idxK : Int := idx - cij
  let kk : Int := truncInt ((idxK : ℚ) - eps)
  (ii, jj, kk)

/-- c++/src/latticemap.cpp:193-208 indicesFromCell. -/
def indicesFromCell (L : LatticeMap) (i j k : Nat) : List Nat :=
  let tmp1 := i * L.repB + j
  let tmp2 := tmp1 * L.repC + k
  let tmp3 := tmp2 * L.nBasis
  (List.range L.nBasis).map (fun l => tmp3 + l)

/-- c++/src/latticemap.h:97 basisSiteFromIndex. -/
def basisSite (L : LatticeMap) (index : Nat) : Nat := index % L.nBasis

/-- The values taken by `for (int i = c - shells; i <= c + shells; ++i)`,
c++/src/latticemap.cpp:75, 93, 111. -/
def cellRange (c : Int) (shells : Nat) : List Int :=
  (List.range (2 * shells + 1)).map (fun t : Nat => c - shells + (t : Int))

/-- c++/src/latticemap.cpp:77-89 (and 95-107, 113-125; 231-265): the single periodic wrap. -/
def wrapCell (per : Bool) (rep : Nat) (i : Int) : Int :=
  if per then
    if i < 0 then i + rep
    else if i ≥ rep then i - rep
    else i
  else i

/-- c++/src/latticemap.cpp:54-151 neighbourIndices. -/
def neighbourIndices (L : LatticeMap) (index shells : Nat) : List Nat :=
  let c := L.indexToCell index
  (cellRange c.1 shells).flatMap fun i =>
    let ii := wrapCell L.perA L.repA i
    if ii ≥ 0 ∧ ii < L.repA then
      (cellRange c.2.1 shells).flatMap fun j =>
        let jj := wrapCell L.perB L.repB j
        if jj ≥ 0 ∧ jj < L.repB then
          (cellRange c.2.2 shells).flatMap fun k =>
            let kk := wrapCell L.perC L.repC k
            if 0 ≤ kk ∧ kk < L.repC then
              L.indicesFromCell ii.toNat jj.toNat kk.toNat
            else []
        else []
    else []

/-- `std::unique`: drop an element equal to its predecessor. -/
def uniqueAdj : List Nat → List Nat
  | [] => []
  | [a] => [a]
  | a :: b :: l => if a = b then uniqueAdj (b :: l) else a :: uniqueAdj (b :: l)

/-- c++/src/latticemap.cpp:156-188 supersetNeighbourIndices. -/
def supersetNeighbourIndices (L : LatticeMap) (indices : List Nat) (shells : Nat) : List Nat :=
  uniqueAdj ((indices.flatMap fun index => L.neighbourIndices index shells).insertionSort (· ≤ ·))

/-- c++/src/latticemap.cpp:213-271 indexFromMoveInfo. Reading past the `n_basis_` indices of the
cell is out of bounds; the cell itself is not checked by the code (negative results are possible,
hence `Int`). -/
def indexFromMoveInfo (L : LatticeMap) (index : Nat) (i j k : Int) (basis : Int) : M Int :=
  let c := L.indexToCell index
  let ci := wrapCell L.perA L.repA (c.1 + i)
  let cj := wrapCell L.perB L.repB (c.2.1 + j)
  let ck := wrapCell L.perC L.repC (c.2.2 + k)
  let basisIndex := basis + (L.basisSite index : Int)
  if 0 ≤ basisIndex ∧ basisIndex < L.nBasis then
    .ok (((ci * L.repB + cj) * L.repC + ck) * L.nBasis + basisIndex)
  else .error .outOfBounds

variable {K : Type _} [Field K] [LinearOrder K]

/-- c++/src/latticemap.h:184-195 wrap(c, direction) on one component. -/
def wrapComp (rep : Nat) (c : K) : K :=
  let half : K := 1 * (rep : K) / 2
  if c ≥ half then c - rep
  else if c < -half then c + rep
  else c

/-- c++/src/latticemap.h:165-180 wrap(c). The three branches of configMatchList
(c++/src/configuration.cpp:178-261) all amount to this function. -/
def wrap (L : LatticeMap) (c : Coord K) : Coord K :=
  ⟨if L.perA then wrapComp L.repA c.x else c.x,
   if L.perB then wrapComp L.repB c.y else c.y,
   if L.perC then wrapComp L.repC c.z else c.z⟩

end LatticeMap
end KMC
