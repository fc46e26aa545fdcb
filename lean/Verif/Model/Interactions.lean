import Verif.Model.Process

/-!
# Model of `Interactions` (c++/src/interactions.h, interactions.cpp)

The process pointers are the list of processes itself. (That copies of one Interactions object share
their processes is modelled separately, see Model/Sharing.lean.)
-/

namespace KMC
namespace Interactions
variable {K : Type _} [Field K] [LinearOrder K]

/-- c++/src/interactions.cpp:88-101 maxRange. -/
def maxRange (procs : List (Proc K)) : Nat := procs.foldl (fun m p => max m p.range) 1

/-- c++/src/interactions.cpp:142-172 the merge loop: walk the process list and the central
configuration list together, inserting a wildcard wherever the points differ. `mapping` is
index_mapping, `old`, `new` the two counters. -/
def alignLoop : List (PEntry K) → List (CEntry K) → Nat → Nat → List Nat →
    M (List (PEntry K) × List Nat × Nat)
  | [], _, old, _, mapping => .ok ([], mapping, old)
  | p :: ps, [], old, _, mapping => .ok (p :: ps, mapping, old)
  | p :: ps, c :: cs, old, new, mapping =>
    if samePoint p c = false then do
      let w ← initWildcard c
      let r ← alignLoop (p :: ps) cs old (new + 1) mapping
      return (w :: r.1, r.2)
    else do
      let mapping' ← wr mapping old new
      let r ← alignLoop ps cs (old + 1) (new + 1) mapping'
      return (p :: r.1, r.2)

/-- c++/src/interactions.cpp:116-185 the body of updateProcessMatchLists for one process. -/
def updateMatchListOf (cfg : Config K) (L : LatticeMap) (p : Proc K) : M (Proc K) :=
  match p.basisSites with
  | [basisPosition] => do
    let index ← rd (L.indicesFromCell (L.repA / 2) (L.repB / 2) (L.repC / 2)) basisPosition
    let cml ← rd cfg.matchLists index
    let r ← alignLoop p.matchList cml 0 0 (List.replicate cml.length 0)
    let mapping := r.2.1.take r.2.2
    let idMoves ← mapMM (fun (mv : Nat × Nat) => do
      let a ← rd mapping mv.1
      let b ← rd mapping mv.2
      return (a, b)) p.idMoves
    return { p with matchList := r.1, idMoves := idMoves }
  | _ => .ok p

/-- c++/src/interactions.cpp:106-186 updateProcessMatchLists. -/
def updateProcessMatchLists (implicitWildcards : Bool) (cfg : Config K) (L : LatticeMap)
    (procs : List (Proc K)) : M (List (Proc K)) :=
  if implicitWildcards = false then .ok procs else mapMM (updateMatchListOf cfg L) procs

/-- c++/src/interactions.cpp:191-200 totalAvailableSites. -/
def totalAvailableSites (procs : List (Proc K)) : Nat :=
  procs.foldl (fun s p => s + p.sites.length) 0

/-- c++/src/interactions.cpp:212-223 the running table. -/
def probabilityLoop (previous : K) : List (Proc K) → List (K × Nat)
  | [] => []
  | p :: ps => (p.totalRate + previous, p.sites.length) :: probabilityLoop (previous + p.totalRate) ps

/-- c++/src/interactions.cpp:205-224 updateProbabilityTable. -/
def probabilityTable (procs : List (Proc K)) : List (K × Nat) := probabilityLoop 0 procs

/-- c++/src/interactions.h:102 totalRate. -/
def totalRate (table : List (K × Nat)) : M K :=
  match table.getLast? with
  | some e => .ok e.1
  | none => .error .outOfBounds

/-- c++/src/interactions.cpp:25-37 pairComp. -/
def pairComp (p1 p2 : K × Nat) : Bool := if p2.2 = 0 then false else decide (p1.1 < p2.1)

/-- c++/src/interactions.cpp:229-254 pickProcessIndex; `u` is the random number drawn. -/
def pickProcessIndex (table : List (K × Nat)) (u : K) : M Nat := do
  let total ← totalRate table
  let rndPair : K × Nat := (u * total, 1)
  return lowerBound (fun e => pairComp e rndPair) table

/-- c++/src/interactions.cpp:259-267 pickProcess: the index and the processes with the picked one's
rate table refreshed. -/
def pickProcess (procs : List (Proc K)) (table : List (K × Nat)) (u : K) :
    M (Nat × Proc K × List (Proc K)) := do
  let i ← pickProcessIndex table u
  let p ← rd procs i
  let p' ← p.updateRateTable
  let procs' ← wr procs i p'
  return (i, p', procs')

/-- c++/src/interactions.cpp:272-278 clearMatching. -/
def clearMatching (procs : List (Proc K)) : List (Proc K) := procs.map Proc.clearSites

end Interactions
end KMC
