import Verif.Model.PyProcess
import Verif.Model.PyBucket

/-!
# Model of the comparison of processes
(python/src/KMCLib/CoreComponents/KMCProcess.py:296-343)
-/

namespace KMC.PyProc

variable {K : Type _} [Field K] [LinearOrder K]

/-- KMCProcess.py:323 the square of the norm of the difference of two arrays of points, which is taken over all components. -/
def spread (cs ds : List (Coord K)) : K := ((cs.zip ds).map fun c => (c.1 - c.2).normSq).sum

/-- KMCProcess.py:334-340 one pair of moves. The code compares a norm with 1.0e-8, here the square is compared. -/
def sameMove (m m' : Nat × Coord K) : Bool :=
  if m.1 ≠ m'.1 then false else decide (¬ (m.2 - m'.2).normSq > 1 / 10000000000000000)

/-- KMCProcess.py:325-330 `all([s1 == s2 for s1,s2 in zip(…)])`. -/
def allSame {α : Type _} [DecidableEq α] (l l' : List α) : Bool := (l.zip l').all fun s => decide (s.1 = s.2)

/-- KMCProcess.py:296-343 `__eq__` with another process that is given by elements. The coordinates are those of the local
configurations, which centre them once more (KMCLocalConfiguration.py:68). The types of the local configurations are the
elements, each wrapped in a list with the count 1 (CheckUtilities.py checkAndNormaliseBucketEntry); the names are compared
here. The code compares the norm of the differences with 0.00001, here the square is compared. -/
def eqOp (p q : PyProc K) : M Bool := do
  let cs ← centre p.coords
  let ds ← centre q.coords
  if q.basisSites.length ≠ p.basisSites.length then return false
  else if allSame q.basisSites p.basisSites = false then return false
  else if ds.length ≠ cs.length then return false
  else if spread cs ds > 1 / 10000000000 then return false
  else if allSame p.before q.before = false then return false
  else if allSame p.after q.after = false then return false
  else if p.moves.length ≠ q.moves.length then return false
  else return (p.moves.zip q.moves).all fun v => sameMove v.1 v.2

/-- KMCProcess.py:296-320 `__eq__` with a bucket process. That one has a single local configuration
(KMCBucketProcess.py:82-83), so that line 320 fails as soon as it is reached. -/
def eqBucket (p : PyProc K) (b : PyBucket K) : M Bool := do
  let cs ← centre p.coords
  let ds ← centre b.coords
  if b.basisSites.length ≠ p.basisSites.length then return false
  else if allSame b.basisSites p.basisSites = false then return false
  else if ds.length ≠ cs.length then return false
  else .error .indexError

end KMC.PyProc
