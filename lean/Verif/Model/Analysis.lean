import Verif.Model.Basic

/-!
# Model of the Python analyses (python/src/KMCLib/Analysis)

`TimeStepDistribution`, `Composition` and `ProcessStatistics`. Members that `setup` defines are options that are
`none` before; using them then is an exception. Histogram entries and counters are unbounded. What the printing
methods write is modelled only by the numbers they use.
-/

namespace KMC
namespace Analysis

variable {K : Type _} [Field K] [LinearOrder K] [FloorRing K]

/-- python/src/KMCLib/Utilities/CheckUtilities.py:260-288 checkPositiveFloat. -/
def checkPositiveFloat (parameter : Option K) (default : K) : M K :=
  if parameter.getD default < 0 then .error .exception else .ok (parameter.getD default)

/-- A member that must be defined. -/
def defined {α : Type _} : Option α → M α
  | some a => .ok a
  | none => .error .exception

/-! ### Time step distribution -/

/-- TimeStepDistribution.py:22-34. -/
structure Steps (K : Type _) where
  binsize : K
  histogram : List Nat
  lastTime : Option K
  deriving DecidableEq, Repr

/-- TimeStepDistribution.py:22-34 the constructor. -/
def Steps.make (binsize : Option K) : M (Steps K) := do
  let b ← checkPositiveFloat binsize 1
  return ⟨b, List.replicate 10 0, none⟩

/-- TimeStepDistribution.py:36-40 setup. -/
def Steps.setup (s : Steps K) (time : K) : Steps K := { s with lastTime := some time }

/-- TimeStepDistribution.py:54-58 the loop that makes the histogram longer. The first argument bounds the number of
turns: each one makes a list of ten or more entries longer, and one with fewer is never made longer. -/
def grow : Nat → Int → List Nat → M (List Nat)
  | 0, b, h => if (h.length : Int) ≤ b then .error .diverges else .ok h
  | n + 1, b, h => if (h.length : Int) ≤ b then grow n b (h ++ List.replicate (h.length / 10) 0) else .ok h

/-- `h[b] += 1` for a numpy array: negative indices count from the end. -/
def bump (h : List Nat) (b : Int) : M (List Nat) :=
  let i := if b < 0 then b + h.length else b
  if 0 ≤ i ∧ i < h.length then .ok (h.modify i.toNat (· + 1)) else .error .indexError

/-- TimeStepDistribution.py:42-61 registerStep. -/
def Steps.registerStep (s : Steps K) (time : K) : M (Steps K) := do
  let last ← defined s.lastTime
  if s.binsize = 0 then .error .divByZero else
  let b := truncInt ((time - last) / s.binsize)
  let h ← grow b.toNat b s.histogram
  let h ← bump h b
  return { s with histogram := h, lastTime := some time }

/-- TimeStepDistribution.py:63-71 finalize: the middles of the bins, and the fractions, `none` when nothing has been
registered (numpy then divides zero by zero). -/
def Steps.finalize (s : Steps K) : List K × Option (List K) :=
  ((List.range s.histogram.length).map (fun i : Nat => ((i : K) + 1) * s.binsize - s.binsize / 2),
   if s.histogram.sum = 0 then none else some (s.histogram.map (fun n : Nat => (n : K) / (s.histogram.sum : K))))

/-! ### Composition -/

/-- Composition.py:23-40. -/
structure Comp (K : Type _) where
  interval : K
  steps : Nat
  lastTime : K
  data : List (List K)
  count : Option (List Nat)
  empty : Option (List Nat)
  deriving DecidableEq, Repr

/-- Composition.py:23-40 the constructor. -/
def Comp.make (interval : Option K) : M (Comp K) := do
  let w ← checkPositiveFloat interval 1
  return ⟨w, 0, 0, [], none, none⟩

/-- Composition.py:42-51 setup. `names` is the number of names of the back end, `counts` its particles per type. -/
def Comp.setup (s : Comp K) (time : K) (names : Nat) (counts : List Nat) : Comp K :=
  { s with lastTime := time, empty := some (List.replicate names 0), count := some counts, steps := 1 }

/-- `a += b` for numpy arrays; arrays of different lengths raise. (Numpy would also add an array of length one.) -/
def addArrays (a b : List Nat) : M (List Nat) :=
  if a.length = b.length then .ok (List.zipWith (· + ·) a b) else .error .exception

/-- Composition.py:57-63 closing a block. -/
def Comp.close (s : Comp K) (time : K) : M (Comp K) :=
  if s.interval < time - s.lastTime then do
    let c ← defined s.count
    let e ← defined s.empty
    return { s with data := s.data ++ [c.map (fun n : Nat => (n : K) / (s.steps : K))], count := some e, steps := 0, lastTime := time }
  else .ok s

/-- Composition.py:53-68 registerStep. -/
def Comp.registerStep (s : Comp K) (time : K) (counts : List Nat) : M (Comp K) := do
  let s ← s.close time
  let c ← defined s.count
  let c ← addArrays c counts
  return { s with count := some c, steps := s.steps + 1 }

/-- Composition.py:118-124 times. -/
def Comp.times (s : Comp K) : List K := (List.range s.data.length).map (fun i : Nat => (i : K) * s.interval + s.interval / 2)

/-! ### Process statistics -/

/-- ProcessStatistics.py:24-54. `spatial` is `none` when not asked for. -/
structure Stats (K : Type _) where
  processes : List Nat
  interval : K
  resolved : Bool
  lastTime : K
  data : List Nat
  spatial : Option (List K)
  count : Nat
  deriving DecidableEq, Repr

/-- CheckUtilities.py:134-155 checkSequenceOfPositiveIntegers. -/
def checkNumbers (l : List Int) : M (List Nat) :=
  mapMM (fun n => if n < 0 then .error .exception else .ok n.toNat) l

/-- ProcessStatistics.py:24-54 the constructor. -/
def Stats.make (processes : List Int) (interval : Option K) (resolved : Bool) : M (Stats K) := do
  let p ← checkNumbers processes
  let w ← checkPositiveFloat interval 1
  return ⟨p, w, resolved, 0, [], none, 0⟩

/-- ProcessStatistics.py:56-65 setup. -/
def Stats.setup (s : Stats K) (time : K) (sites : Nat) : Stats K :=
  { s with lastTime := time, spatial := if s.resolved then some (List.replicate sites 0) else s.spatial }

/-- ProcessStatistics.py:71-76 closing a block. -/
def Stats.close (s : Stats K) (time : K) : Stats K :=
  if s.interval < time - s.lastTime then { s with data := s.data ++ [s.count], count := 0, lastTime := time } else s

/-- ProcessStatistics.py:82-84 one more event at a site. -/
def addAt (spatial : Option (List K)) (site : Nat) : M (Option (List K)) := do
  let l ← defined spatial
  if site < l.length then .ok (some (l.modify site (· + 1))) else .error .indexError

/-- ProcessStatistics.py:67-84 registerStep, with the process and site of the latest event. -/
def Stats.registerStep (s : Stats K) (time : K) (process site : Nat) : M (Stats K) :=
  let s := s.close time
  if process ∈ s.processes then
    if s.resolved then do
      let sp ← addAt s.spatial site
      return { s with count := s.count + 1, spatial := sp }
    else .ok { s with count := s.count + 1 }
  else .ok s

/-- ProcessStatistics.py:86-92 finalize: the numbers per site over the last time; `none` stands for the infinities and
nans of a division by zero. -/
def Stats.finalize (s : Stats K) : Option (List K) :=
  if s.resolved then
    if s.lastTime = 0 then none else s.spatial.map (fun l => l.map (· / s.lastTime))
  else s.spatial

/-- ProcessStatistics.py:94-113 printResults: time, total count, rate and mean rate of the blocks but the first. -/
def Stats.rows (s : Stats K) : List (K × Nat × K × K) :=
  ((List.range s.data.length).map (fun i : Nat =>
    ((i : K) * s.interval, (s.data.take (i + 1)).sum, (s.data.getD i 0 : K) / s.interval,
      ((s.data.take (i + 1)).sum : K) / ((i : K) * s.interval)))).drop 1

end Analysis
end KMC
