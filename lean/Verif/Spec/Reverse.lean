import Verif.Spec.Model

/-!
# Processes that undo each other
-/

namespace KMC

variable {K : Type _} [Field K] [LinearOrder K]

/-- The second entry is at the same place, asks for what the first one leaves of what it asks for, and takes back its
changes. -/
structure PEntry.UndoneBy (e f : PEntry K) : Prop where
  distance : f.distance = e.distance
  coord : f.coord = e.coord
  asks : f.matchTypes = List.zipWith (· + ·) e.matchTypes e.updateTypes
  changes : f.updateTypes = e.updateTypes.map (fun u => -u)

/-- The second process is the reverse of the first one. Rates and moves of ids are not compared. -/
structure Proc.UndoneBy (p q : Proc K) : Prop where
  entries : List.Forall₂ PEntry.UndoneBy p.matchList q.matchList
  basis : q.basisSites = p.basisSites

/-- The places of a process are distinct, wildcards apart. -/
def Proc.Distinct (p : Proc K) : Prop :=
  p.matchList.Pairwise (fun e f => e.matchTypes[0]? ≠ some 1 → f.matchTypes[0]? ≠ some 1 → Apart e.coord f.coord)

end KMC
