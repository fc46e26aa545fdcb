import Verif.Model.Matcher
import Verif.Model.PyProcess

/-!
# What the user's rate function is given (KMCRateCalculatorPlugin.py, ConversionUtilities.py)

The C++ code calls `backendRateCallback` or `backendRateCallbackBuckets` with flat data (`RateArgs`); the plug-in turns
them into the arguments of the user's function `rate`.
-/

namespace KMC

/-- c++/src/matcher.cpp:541-549 and c++/src/hash.cpp:133-141 as written: the distance of an entry is read before the test
for the end of the list, so at the end this is a read of `*end()`. `Matcher.withinCutoff` ignores that read. -/
def Matcher.withinCutoffRead {K : Type _} [LinearOrder K] (cutoff : K) : List (CEntry K) → M (List (CEntry K))
  | [] => .error .outOfBounds
  | e :: l => if e.distance ≤ cutoff then do
      let r ← withinCutoffRead cutoff l
      return e :: r
    else .ok []

namespace PyRate

variable {K : Type _}

/-- The types given to the user: a name for each site, or the counts at each site. -/
inductive Types
  | names (l : List String)
  | counts (l : List (List (Int × String)))
  deriving DecidableEq, Repr

/-- The arguments of `rate`, python/src/KMCLib/PluginInterfaces/KMCRateCalculatorPlugin.py:103-109. -/
structure Args (K : Type _) where
  coords : List (List K)
  before : Types
  after : Types
  rateConstant : K
  processNumber : Nat
  globalCoordinate : K × K × K
  deriving DecidableEq, Repr

/-- c++/src/matcher.cpp:553-565: the coordinates one after the other. -/
def flatten (geo : List (Coord K)) : List K := geo.flatMap (fun c => [c.x, c.y, c.z])

/-- `numpy.array(l).reshape(n, 3)`, row by row; the size must fit. -/
def reshape (n : Nat) (l : List K) : M (List (List K)) :=
  if l.length = n * 3 then
    mapMM (fun i => do
      let x ← rd l (3 * i)
      let y ← rd l (3 * i + 1)
      let z ← rd l (3 * i + 2)
      return [x, y, z]) (List.range n)
  else .error .exception

/-- python/src/KMCLib/Utilities/ConversionUtilities.py:261-272: one turn of the loop over the slots of a bucket. -/
def slot (names : List String) (b : Bucket) (acc : List (Int × String)) (j : Nat) : M (List (Int × String)) := do
  let t ← PyProc.pyGet names ((j + 1 : Nat) : Int)
  let n ← rd b (j + 1)
  return if n > 0 then acc ++ [(n, t)] else acc

/-- python/src/KMCLib/Utilities/ConversionUtilities.py:257-274: one turn of the loop over the sites. -/
def siteTypes (names : List String) (b : Bucket) : M (List (Int × String)) :=
  loopM (slot names b) (List.range (b.length - 1)) []

/-- python/src/KMCLib/Utilities/ConversionUtilities.py:244-277 stdVectorTypeBucketToPython. -/
def toPython (bs : List Bucket) (names : List String) : M (List (List (Int × String))) := mapMM (siteTypes names) bs

/-- python/src/KMCLib/PluginInterfaces/KMCRateCalculatorPlugin.py:57-60. -/
def after (occ upd : List Bucket) : M (List Bucket) :=
  mapMM (fun (i : Nat) => do
    let o ← PyProc.pyGet occ (i : Int)
    let u ← PyProc.pyGet upd (i : Int)
    Bucket.add o u) (List.range upd.length)

/-- python/src/KMCLib/PluginInterfaces/KMCRateCalculatorPlugin.py:38-94 backendRateCallbackBuckets and
backendRateCallback up to the call of `rate`. The length given by the C++ code is that of the geometry
(c++/src/matcher.cpp:541-552). -/
def callback : RateArgs K → M (Args K)
  | .plain geo before after rc pn g => do
    let cs ← reshape geo.length (flatten geo)
    return ⟨cs, .names before, .names after, rc, pn, (g.x, g.y, g.z)⟩
  | .buckets geo occ upd names rc pn g => do
    let occ' ← after occ upd
    let cs ← reshape geo.length (flatten geo)
    let b ← toPython occ names
    let a ← toPython occ' names
    return ⟨cs, .counts b, .counts a, rc, pn, (g.x, g.y, g.z)⟩

end PyRate
end KMC
