import Verif.Model.Configuration
import Verif.Model.Analysis

/-!
# Model of the mean square displacement analysis

`Blocker` (c++/src/blocker.cpp), `OnTheFlyMSD` (c++/src/ontheflymsd.cpp) and the Python class that drives it
(python/src/KMCLib/Analysis/OnTheFlyMSD.py). Counters are unbounded. The conversion of a quotient that no `int` can
hold is undefined in C++ and a fault here; so is the conversion of a quotient by a bin size of zero.
-/

namespace KMC

variable {K : Type _} [Field K] [LinearOrder K] [FloorRing K]

/-- c++/src/blocker.h:61-75 the data members. -/
structure Blocker (K : Type _) where
  blocksize : Nat
  counts : List Nat
  block : List (Coord K)
  blocks : List (List (Coord K))
  deriving DecidableEq, Repr

namespace Blocker

/-- c++/src/blocker.cpp:22-29 the constructor. -/
def make (nBins blocksize : Nat) : Blocker K :=
  ⟨blocksize, List.replicate nBins 0, List.replicate nBins 0, List.replicate nBins []⟩

/-- c++/src/blocker.cpp:34-48 registerStep. -/
def registerStep (b : Blocker K) (bin : Nat) (value : Coord K) : M (Blocker K) := do
  let v ← rd b.block bin
  let block ← wr b.block bin (v + value)
  let c ← rd b.counts bin
  let counts ← wr b.counts bin (c + 1)
  if c + 1 = b.blocksize then
    let l ← rd b.blocks bin
    let blocks ← wr b.blocks bin (l ++ [v + value])
    let counts ← wr counts bin 0
    let block ← wr block bin 0
    return { b with counts := counts, block := block, blocks := blocks }
  else return { b with counts := counts, block := block }

/-- The division of the three components. -/
def over (c : Coord K) (d : K) : Coord K := ⟨c.x / d, c.y / d, c.z / d⟩

/-- c++/src/blocker.cpp:77-106 the mean square deviation of the blocks of a bin from the value of the run, over the
number of blocks less one: the squares of the three standard deviations. -/
def variance (blocksize : Nat) (run : Coord K) (blocks : List (Coord K)) : Coord K :=
  let sum := blocks.foldl (fun s x =>
    let d := over x (blocksize : K) - run
    s + d.outerProdDiag d) 0
  over (over sum (blocks.length : K)) ((blocks.length : K) - 1)

/-- c++/src/blocker.cpp:53-123 values, without the square roots: `none` for -1, which stands for fewer than two blocks,
and otherwise the squares of the standard deviations and of their deviations. -/
def values (b : Blocker K) (binCounts : List Nat) (hist : List (Coord K)) : M (List (Option (Coord K × Coord K))) :=
  mapMM (fun i => do
    let n ← rd binCounts i
    let h ← rd hist i
    let blocks ← rd b.blocks i
    let run := over h ((if n ≠ 0 then n else 1 : Nat) : K)
    if 1 < blocks.length then
      let v := variance b.blocksize run blocks
      return some (v, over v (2 * (blocks.length : K) - 2))
    else return none) (List.range b.blocks.length)

end Blocker

/-- A position and a time. -/
abbrev Pos (K : Type _) := Coord K × K

/-- c++/src/ontheflymsd.h:105-143 the data members. -/
structure Msd (K : Type _) where
  history : List (List (Pos K))
  hist : List (Coord K)
  histSqr : List (Coord K)
  binCounts : List Nat
  track : String
  binSize : K
  steps : Nat
  stepBinCounts : List (List Nat)
  abc : List (Coord K)
  stepCounts : List Nat
  blocker : Blocker K
  deriving DecidableEq, Repr

namespace Msd

/-- c++/src/ontheflymsd.cpp:19-51 the constructor. A history of zero steps asks for a vector of size -1, which throws.
With zero bins the bin size is an infinity or nan, which is not modelled (the Python class never gets so far). -/
def make (cfg : Config K) (steps nBins : Nat) (tMax t0 : K) (track : String) (abc : List (Coord K)) (blocksize : Nat) :
    M (Msd K) := do
  if steps = 0 then .error .exception else
  if nBins = 0 then .error .divByZero else
  let history ← loopM (fun (h : List (List (Pos K))) (p : Nat × Coord K) => do
    let t ← rd cfg.atomIdElements p.1
    if t = track then
      let l ← rd h p.1
      wr h p.1 (l ++ [(p.2, t0)])
    else return h) ((List.range cfg.atomIdCoords.length).zip cfg.atomIdCoords) (List.replicate cfg.elements.length [])
  return { history := history, hist := List.replicate nBins 0, histSqr := List.replicate nBins 0,
           binCounts := List.replicate nBins 0, track := track, binSize := tMax / (nBins : K), steps := steps,
           stepBinCounts := List.replicate (steps - 1) (List.replicate nBins 0), abc := abc,
           stepCounts := List.replicate steps 0, blocker := Blocker.make nBins blocksize }

/-- c++/src/ontheflymsd.cpp:118-120 the bin of a time difference. The conversion to the unsigned `size_t` makes a
negative number large, so that it is not in the range: `none`. -/
def bin (binSize dt : K) : M (Option Nat) :=
  if binSize = 0 then .error .overflow else
  let i := truncInt (dt / binSize)
  if i < -2147483648 ∨ 2147483647 < i then .error .overflow else
  .ok (if i < 0 then none else some i.toNat)

/-- c++/src/ontheflymsd.cpp:124-132 the squared displacement in Cartesian coordinates. -/
def displacement (abc : List (Coord K)) (a b : Coord K) : M (Coord K) := do
  let d := a - b
  let r0 ← rd abc 0
  let r1 ← rd abc 1
  let r2 ← rd abc 2
  let diff : Coord K := ⟨d.dot r0, d.dot r1, d.dot r2⟩
  return diff.outerProdDiag diff

/-- c++/src/ontheflymsd.cpp:133-142 storing a value. -/
def store (s : Msd K) (i bin : Nat) (sqr : Coord K) : M (Msd K) := do
  let h ← rd s.hist bin
  let hist ← wr s.hist bin (h + sqr)
  let q ← rd s.histSqr bin
  let histSqr ← wr s.histSqr bin (q + sqr.outerProdDiag sqr)
  let c ← rd s.binCounts bin
  let binCounts ← wr s.binCounts bin (c + 1)
  let row ← rd s.stepBinCounts (i - 1)
  let n ← rd row bin
  let row ← wr row bin (n + 1)
  let stepBinCounts ← wr s.stepBinCounts (i - 1) row
  let blocker ← s.blocker.registerStep bin sqr
  return { s with hist := hist, histSqr := histSqr, binCounts := binCounts, stepBinCounts := stepBinCounts,
                  blocker := blocker }

/-- c++/src/ontheflymsd.cpp:113-144 one turn of the loop of calculateAndBinMSD. -/
def binOne (history : List (Pos K)) (s : Msd K) (i : Nat) : M (Msd K) := do
  let n ← rd s.stepCounts (i - 1)
  let stepCounts ← wr s.stepCounts (i - 1) (n + 1)
  let h0 ← rd history 0
  let hi ← rd history i
  let b ← bin s.binSize (h0.2 - hi.2)
  match b with
  | some b =>
    if b < s.hist.length then
      displacement s.abc hi.1 h0.1 >>= fun sqr => store { s with stepCounts := stepCounts } i b sqr
    else .ok { s with stepCounts := stepCounts }
  | none => .ok { s with stepCounts := stepCounts }

/-- c++/src/ontheflymsd.cpp:102-145 calculateAndBinMSD. -/
def calculateAndBin (s : Msd K) (history : List (Pos K)) : M (Msd K) :=
  loopM (binOne history) (List.range' 1 (history.length - 1)) s

/-- c++/src/ontheflymsd.cpp:70-83 the new history of an atom. -/
def push (steps : Nat) (l : List (Pos K)) (p : Pos K) : M (List (Pos K)) := do
  let l := if l.length < steps then l ++ [(0, 0)] else l
  let l ← loopM (fun (l : List (Pos K)) j => do
    let v ← rd l j
    wr l (j + 1) v) (List.range (l.length - 1)).reverse l
  wr l 0 p

/-- c++/src/ontheflymsd.cpp:68-95 the body of the loop for an atom of the tracked type. -/
def registerAtom (s : Msd K) (id : Nat) (p : Pos K) : M (Msd K) := do
  let l ← rd s.history id
  let l ← push s.steps l p
  let h ← wr s.history id l
  calculateAndBin { s with history := h } l

/-- c++/src/ontheflymsd.cpp:56-97 registerStep. -/
def registerStep (s : Msd K) (time : K) (cfg : Config K) : M (Msd K) :=
  loopM (fun (s : Msd K) id => do
    let t ← rd cfg.atomIdElements id
    if t = s.track then
      let c ← rd cfg.atomIdCoords id
      s.registerAtom id (c, time)
    else return s) cfg.movedAtomIDs s

end Msd

/-! ### The Python class -/

/-- OnTheFlyMSD.py:48-69 the parameters. -/
structure MsdInput (K : Type _) where
  steps : Nat
  nBins : Nat
  tMax : K
  track : String
  deriving DecidableEq, Repr

namespace MsdInput
open Analysis

/-- CheckUtilities.py:229-257 checkPositiveInteger, which accepts zero. -/
def checkPositiveInteger (parameter : Option Int) (default : Nat) : M Nat :=
  if parameter.getD default < 0 then .error .exception else .ok (parameter.getD default).toNat

/-- OnTheFlyMSD.py:27-69 the constructor. -/
def make (steps nBins : Option Int) (tMax : Option K) (track : String) : M (MsdInput K) := do
  let s ← checkPositiveInteger steps 5
  let n ← checkPositiveInteger nBins 100
  let t ← checkPositiveFloat tMax 100
  if n = 0 then .error .divByZero else
  return ⟨s, n, t, track⟩

/-- OnTheFlyMSD.py:71-100 setup. The columns of the cell vectors are the rows of the transposed matrix. The block size
is always zero. -/
def setup (m : MsdInput K) (time : K) (cfg : Config K) (cell : Coord K × Coord K × Coord K) : M (Msd K) :=
  if m.track ∈ cfg.possibleTypes.map (·.1) then
    Msd.make cfg m.steps m.nBins m.tMax time m.track
      [⟨cell.1.x, cell.2.1.x, cell.2.2.x⟩, ⟨cell.1.y, cell.2.1.y, cell.2.2.y⟩, ⟨cell.1.z, cell.2.1.z, cell.2.2.z⟩] 0
  else .error .exception

/-- OnTheFlyMSD.py:125-137 the effective number of steps of the bins. -/
def effective (s : Msd K) : List K :=
  (List.range s.binCounts.length).map fun i =>
    ((List.range s.stepBinCounts.length).map fun b : Nat =>
      let c := (s.stepBinCounts.getD b []).getD i 0
      let n := s.binCounts.getD i 0
      if c ≠ 0 ∧ n ≠ 0 then (c : K) / (n : K) * ((b : K) + 1) else 0).sum

/-- OnTheFlyMSD.py:139-152 the results of a bin: the sums over `x`, `y`, `z`, `xy`, `xz`, `yz` and `xyz`, over the
number of values or one. -/
def results (s : Msd K) : List (List K) :=
  (List.range s.hist.length).map fun i =>
    let n : K := ((if s.binCounts.getD i 0 = 0 then 1 else s.binCounts.getD i 0 : Nat) : K)
    let h := s.hist.getD i 0
    [h.x / n, h.y / n, h.z / n, (h.x + h.y) / n, (h.x + h.z) / n, (h.y + h.z) / n, (h.x + h.y + h.z) / n]

/-- OnTheFlyMSD.py:166-170 the counter that goes with an effective number of steps, if it is well defined and the
counter is there. -/
def deviationCounter (s : Msd K) (n1 : K) : Option Nat :=
  if truncInt (n1 + 1) < s.stepCounts.length ∧ 1 / 1000000000000 < n1 then s.stepCounts[(truncInt (n1 + 1)).toNat]? else none

/-- OnTheFlyMSD.py:172-182 the square of the factor, for `k` values. -/
def factorSqr (n1 k : K) : K :=
  if n1 ≤ k then 2 * ((4 * n1 ^ 2 * k + 2 * k + n1 - n1 ^ 3) / (n1 * 6 * k ^ 2))
  else 2 * (1 + (k ^ 3 - 4 * n1 * k ^ 2 + 4 * n1 - k) / (6 * n1 ^ 2 * k))

/-- OnTheFlyMSD.py:155-197 the squares of the standard deviations of a bin. -/
def deviations (s : Msd K) : List (List K) :=
  (List.range s.hist.length).map fun i =>
    match deviationCounter s ((effective s).getD i 0) with
    | some k =>
      if 0 < k then
        List.zipWith (fun r d => r ^ 2 * factorSqr ((effective s).getD i 0) (k : K) * d) ((results s).getD i [])
          [1, 1, 1, 1 / 2, 1 / 2, 1 / 2, 1 / 3]
      else List.replicate 7 0
    | none => List.replicate 7 0

/-- OnTheFlyMSD.py:153 the times of the bins. -/
def times (m : MsdInput K) : List K :=
  (List.range m.nBins).map (fun i : Nat => ((i : K) + 1) * (m.tMax / (m.nBins : K)) - m.tMax / (m.nBins : K) / 2)

/-- OnTheFlyMSD.py:243-259 safeCutoff: the first bin of the last row of counters with more than a hundredth of the
largest. The last row of an empty list raises. -/
def safeCutoff (s : Msd K) : M Nat :=
  match s.stepBinCounts.getLast? with
  | none => .error .indexError
  | some row =>
    match row.findIdx? (fun c => decide (row.foldl max 0 < 100 * c)) with
    | some i => .ok i
    | none => .ok row.length

end MsdInput
end KMC
