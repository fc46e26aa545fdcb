import Verif.Model.Configuration

/-!
# Model of `Process` and `CustomRateProcess`
(c++/src/process.h, process.cpp, customrateprocess.cpp, matchlist.cpp:20-137)

One record serves both classes: `custom` says which class the object has, and so which of the
virtual functions run.
-/

namespace KMC

/-- The data members of c++/src/process.h:125-184. -/
structure Proc (K : Type _) where
  number : Nat
  custom : Bool
  cacheRate : Bool
  bucketProcess : Bool
  range : Nat
  rate : K
  cutoff : K
  basisSites : List Nat
  matchList : List (PEntry K)
  idMoves : List (Nat × Nat)
  affected : List Nat
  sites : List Nat
  siteMult : List K
  siteRates : List K
  totalRate : K
  rateTable : List K
  deriving DecidableEq, Repr

/-- libstdc++ `std::lower_bound` on a vector: binary search driven by `less x`, meaning "x is ordered
before the searched value". `first`, `len` are the current window, `fuel` bounds the number of
rounds; `len` rounds are always enough. -/
def lowerBoundLoop {α : Type _} (less : α → Bool) (xs : List α) : Nat → Nat → Nat → Nat
  | 0, first, _ => first
  | fuel + 1, first, len =>
    if len = 0 then first
    else
      let half := len / 2
      match xs[first + half]? with
      | none => first
      | some x =>
        if less x then lowerBoundLoop less xs fuel (first + half + 1) (len - half - 1)
        else lowerBoundLoop less xs fuel first half

/-- `std::lower_bound(xs.begin(), xs.end(), ...) - xs.begin()`. -/
def lowerBound {α : Type _} (less : α → Bool) (xs : List α) : Nat :=
  lowerBoundLoop less xs xs.length 0 xs.length

/-- `std::swap(v[i], v.back())`, `x = v.back()`, `v.pop_back()`: returns `x` and the shortened vector.
-/
def swapPop {α : Type _} (xs : List α) (i : Nat) : M (α × List α) :=
  match xs[i]?, xs.getLast? with
  | some a, some l => .ok (a, (xs.set i l).dropLast)
  | _, _ => .error .outOfBounds

namespace Proc
variable {K : Type _} [Field K] [LinearOrder K]

/-- c++/src/process.cpp:103-110 and customrateprocess.cpp:51-59 addSite. -/
def addSite (p : Proc K) (index : Nat) (rate : K) (mult : K) : Proc K :=
  if p.custom then
    { p with sites := p.sites ++ [index], siteMult := p.siteMult ++ [mult],
             siteRates := p.siteRates ++ [rate], totalRate := p.totalRate + mult * rate }
  else
    { p with sites := p.sites ++ [index], siteMult := p.siteMult ++ [mult],
             totalRate := p.totalRate + mult * p.rate }

/-- c++/src/process.cpp:115-136 and customrateprocess.cpp:64-101 removeSite. A site that is not
listed makes the code swap through `end()`. -/
def removeSite (p : Proc K) (index : Nat) : M (Proc K) :=
  match p.sites.findIdx? (fun s => decide (s = index)) with
  | none => .error .outOfBounds
  | some i =>
    if p.custom then do
      let s ← swapPop p.sites i
      let r ← swapPop p.siteRates i
      let m ← swapPop p.siteMult i
      return { p with sites := s.2, siteRates := r.2, siteMult := m.2,
                      totalRate := p.totalRate - r.1 * m.1 }
    else do
      let s ← swapPop p.sites i
      let m ← swapPop p.siteMult i
      return { p with sites := s.2, siteMult := m.2, totalRate := p.totalRate - m.1 * p.rate }

/-- c++/src/process.cpp:141-147 clearSites. -/
def clearSites (p : Proc K) : Proc K :=
  { p with sites := [], siteMult := [], siteRates := [], totalRate := 0 }

/-- c++/src/process.cpp:181-185 isListed. -/
def isListed (p : Proc K) (index : Nat) : Bool := decide (index ∈ p.sites)

/-- The running sums `previous + term` of c++/src/process.cpp:194-199. -/
def prefixSums (previous : K) : List K → List K
  | [] => []
  | t :: ts => (previous + t) :: prefixSums (previous + t) ts

/-- The terms of the incremental table of a custom rate process,
c++/src/customrateprocess.cpp:111-115; reading past `site_rates_` is out of bounds. -/
def customTerms : List K → List K → M (List K)
  | _, [] => .ok []
  | [], _ :: _ => .error .outOfBounds
  | r :: rs, m :: ms => do
    let t ← customTerms rs ms
    return (r * m) :: t

/-- c++/src/process.cpp:190-202 and customrateprocess.cpp:106-118 updateRateTable. -/
def updateRateTable (p : Proc K) : M (Proc K) :=
  if p.custom then do
    let t ← customTerms p.siteRates p.siteMult
    return { p with rateTable := prefixSums 0 t }
  else .ok { p with rateTable := prefixSums 0 (p.siteMult.map fun m => p.rate * m) }

/-- c++/src/process.cpp:152-176 pickSite; `u` is the random number drawn. -/
def pickSite (p : Proc K) (u : K) : M Nat :=
  match p.rateTable.getLast? with
  | none => .error .outOfBounds
  | some total =>
    let rnd := u * total
    rd p.sites (lowerBound (fun x => decide (x < rnd)) p.rateTable)

end Proc

section
variable {K : Type _} [Field K] [LinearOrder K]

/-- c++/src/matchlist.cpp:43-54 the update bucket of one site from its update info. -/
def updateFromInfo (pt : List (String × Nat)) (info : List (String × Int)) : M Bucket :=
  loopM (fun (b : Bucket) (e : String × Int) => do
    let t ← Config.typeNumber pt e.1
    wr b t e.2) info (Bucket.zeros pt.length)

/-- c++/src/matchlist.cpp:65-70: `t2 - t1` over the slots of `t2`. -/
def bucketDiff : Bucket → Bucket → M Bucket
  | [], _ => .ok []
  | _ :: _, [] => .error .outOfBounds
  | b :: bs, a :: as => do
    let r ← bucketDiff bs as
    return (b - a) :: r

/-- c++/src/matchlist.cpp:30-73 the update types. -/
def updateTypesOf (first second : Config K) (info : List (List (String × Int))) : M (List Bucket) :=
  if info.length ≠ 0 then mapMM (updateFromInfo second.possibleTypes) info
  else mapMM (fun i => do
    let t1 ← rd first.types i
    let t2 ← rd second.types i
    bucketDiff t2 t1) (List.range first.elements.length)

/-- c++/src/matchlist.cpp:107-119 one match list entry. -/
def entryOf (dist : Coord K → K) (first : Config K) (updates : List Bucket) (origin : Coord K)
    (i : Nat) : M (PEntry K) := do
  let c ← rd first.coords i
  let t ← rd first.types i
  let u ← rd updates i
  return { hasMove := false, distance := dist (c - origin), coord := c, moveCoord := 0,
           matchTypes := t, updateTypes := u }

/-- c++/src/matchlist.cpp:124-135: does the entry get a slot in the affected indices? -/
def isAffecting (p : PEntry K) : Bool := p.updateTypes.any (fun v => decide (v ≠ 0))

/-- c++/src/process.cpp:55-60: put a move vector on its entry. -/
def setMove (l : List (PEntry K)) (m : Nat × Coord K) : M (List (PEntry K)) := do
  let e ← rd l m.1
  wr l m.1 { e with hasMove := true, moveCoord := m.2 }

/-- c++/src/process.cpp:80-95: the entry a move vector points to. -/
def moveTarget (dist : Coord K → K) (l : List (PEntry K)) (i : Nat) (e : PEntry K) : Option Nat :=
  (List.range l.length).find? fun j =>
    match l[j]? with
    | some f => f.hasMove && decide (j ≠ i) &&
        decide (dist (f.coord - (e.coord + e.moveCoord)) < 1 / 1000000)
    | none => false

/-- c++/src/process.cpp:67-97: the id moves of a sorted match list. -/
def idMovesOf (dist : Coord K → K) (l : List (PEntry K)) : List (Nat × Nat) :=
  (List.range l.length).filterMap fun i =>
    match l[i]? with
    | some e => if e.hasMove then (moveTarget dist l i e).map (fun j => (i, j)) else none
    | none => none
end

section
variable {K : Type _} [Field K] [LinearOrder K] [FloorRing K]

/-- c++/src/matchlist.cpp:95, 99, 103: the number of cells needed along one axis. The value is never
negative. -/
def axisRange (x : K) : Nat :=
  (truncInt (if x < 0 then -1 * x + 99999 / 100000 else x)).toNat

/-- c++/src/matchlist.cpp:92-104: the range grows to cover a coordinate. -/
def growRange (range : Nat) (c : Coord K) : Nat :=
  max (axisRange c.z) (max (axisRange c.y) (max (axisRange c.x) range))

/-- c++/src/process.cpp:23-98 the constructor of Process, with c++/src/matchlist.cpp:20-137
configurationsToMatchList inlined. `moves` are the move origins paired with the move vectors
(both come from the same Python list, KMCInteractions.py). -/
def mkProcess (dist : Coord K → K) (first second : Config K) (info : List (List (String × Int)))
    (rate : K) (basisSites : List Nat) (moves : List (Nat × Coord K)) (number : Nat) :
    M (Proc K) := do
  let updates ← updateTypesOf first second info
  let origin ← rd first.coords 0
  let entries ← mapMM (entryOf dist first updates origin) (List.range first.elements.length)
  let cutoff := entries.foldl (fun m e => if e.distance > m then e.distance else m) 0
  let range := entries.foldl (fun r e => growRange r e.coord) 1
  let withMoves ← loopM setMove moves entries
  let sorted := sortP withMoves
  return { number := number, custom := false, cacheRate := false,
           bucketProcess := decide (info.length ≠ 0), range := range, rate := rate,
           cutoff := cutoff, basisSites := basisSites, matchList := sorted,
           idMoves := idMovesOf dist sorted,
           affected := (entries.filter isAffecting).map (fun _ => 0),
           sites := [], siteMult := [], siteRates := [], totalRate := 0, rateTable := [] }

/-- c++/src/customrateprocess.cpp:23-46 the constructor of CustomRateProcess. -/
def mkCustomProcess (dist : Coord K → K) (first second : Config K)
    (info : List (List (String × Int))) (rate : K) (basisSites : List Nat) (cutoff : K)
    (moves : List (Nat × Coord K)) (number : Nat) (cacheRate : Bool) : M (Proc K) := do
  let p ← mkProcess dist first second info rate basisSites moves number
  let c := if cutoff > p.cutoff then cutoff else p.cutoff
  return { p with custom := true, cacheRate := cacheRate, cutoff := c,
                  range := (truncInt c).toNat }
end

end KMC
