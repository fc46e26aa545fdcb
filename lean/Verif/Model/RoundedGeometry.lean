import Verif.Model.Rounded

/-!
# The calculations with coordinates and distances, with rounding

`Model/Rounded` has the rates, the time and the numbers of cells in rounded arithmetic. Here the coordinates and distances are
rounded as well, so that `InDouble.run` is the whole run in rounded arithmetic: every result of an operation on `double`s
goes through `fl`, and every decimal constant that is not a `double` is rounded. `len` is the length of a coordinate as the
program calculates it. Operations that are exact in binary arithmetic (`1.0 * rep / 2.0`, changes of sign, absolute values) are
not rounded. Lattice indices are exact, see C54.
-/

namespace KMC
namespace InDouble
variable {K : Type _} [Field K] [LinearOrder K]

/-- c++/src/coordinate.h operator-. -/
def sub (fl : K → K) (a b : Coord K) : Coord K := ⟨fl (a.x - b.x), fl (a.y - b.y), fl (a.z - b.z)⟩

/-- c++/src/coordinate.h operator+. -/
def add (fl : K → K) (a b : Coord K) : Coord K := ⟨fl (a.x + b.x), fl (a.y + b.y), fl (a.z + b.z)⟩

/-- c++/src/latticemap.h:184-195 wrap(c, direction) on one component. -/
def wrapComp (fl : K → K) (rep : Nat) (c : K) : K :=
  let half : K := 1 * (rep : K) / 2
  if c ≥ half then fl (c - rep)
  else if c < -half then fl (c + rep)
  else c

/-- c++/src/latticemap.h:165-180 wrap(c). -/
def wrap (fl : K → K) (L : LatticeMap) (c : Coord K) : Coord K :=
  ⟨if L.perA then wrapComp fl L.repA c.x else c.x,
   if L.perB then wrapComp fl L.repB c.y else c.y,
   if L.perC then wrapComp fl L.repC c.z else c.z⟩

/-- c++/src/configuration.cpp:178-261 the relative coordinate, wrapped; the three branches. -/
def relCoord (fl : K → K) (L : LatticeMap) (c center : Coord K) : Coord K :=
  let d := sub fl c center
  if L.perA ∧ L.perB ∧ L.perC then
    ⟨wrapComp fl L.repA d.x, wrapComp fl L.repB d.y, wrapComp fl L.repC d.z⟩
  else if L.perA ∧ L.perB then
    ⟨wrapComp fl L.repA d.x, wrapComp fl L.repB d.y, d.z⟩
  else wrap fl L d

/-- c++/src/coordinate.h:183-186 norm, 331-341 distance (from the origin) and 346-356 distanceToOrigin; `sqrt` is the exact
square root, which is then rounded, and `std::pow(x, 2)` is taken to be `x * x` rounded. -/
def norm (fl sqrt : K → K) (c : Coord K) : K :=
  fl (sqrt (fl (fl (fl (c.x * c.x) + fl (c.y * c.y)) + fl (c.z * c.z))))

/-- c++/src/matchlistentry.cpp:18 epsi__, the `double` next to 0.00001. -/
def epsi (fl : K → K) : K := fl (1 / 100000)

/-- The comparison of c++/src/matchlistentry.cpp:77-114, 119-156, 160-197. -/
def ptLt (fl : K → K) (d1 : K) (c1 : Coord K) (d2 : K) (c2 : Coord K) : Bool :=
  if |fl (d2 - d1)| < epsi fl then
    if c1.x < c2.x then true
    else if c1.x > c2.x then false
    else if c1.y < c2.y then true
    else if c1.y > c2.y then false
    else decide (c1.z < c2.z)
  else decide (d1 < d2)

/-- c++/src/matchlistentry.cpp:23-45 and 50-72 samePoint. -/
def ptSame (fl : K → K) (d1 : K) (c1 : Coord K) (d2 : K) (c2 : Coord K) : Bool :=
  if |fl (d2 - d1)| > epsi fl then false
  else if |fl (c2.x - c1.x)| > epsi fl then false
  else if |fl (c2.y - c1.y)| > epsi fl then false
  else if |fl (c2.z - c1.z)| > epsi fl then false
  else true

/-- c++/src/matchlistentry.cpp:50-72 samePoint(process entry, configuration entry). -/
def samePoint (fl : K → K) (p : PEntry K) (c : CEntry K) : Bool := ptSame fl p.distance p.coord c.distance c.coord

/-- `std::sort` on configuration entries. -/
def sortC (fl : K → K) (l : List (CEntry K)) : List (CEntry K) :=
  l.insertionSort (fun a b => ptLt fl b.distance b.coord a.distance a.coord = false)

/-- `std::sort` on process entries. -/
def sortP (fl : K → K) (l : List (PEntry K)) : List (PEntry K) :=
  l.insertionSort (fun a b => ptLt fl b.distance b.coord a.distance a.coord = false)

/-- One entry of the match list, c++/src/configuration.cpp:183-202. -/
def cEntry (fl : K → K) (len : Coord K → K) (L : LatticeMap) (cfg : Config K) (center : Coord K) (i : Nat) :
    M (CEntry K) := do
  let ci ← rd cfg.coords i
  let t ← rd cfg.types i
  let c := relCoord fl L ci center
  return { index := i, distance := len c, coord := c, matchTypes := t }

/-- c++/src/configuration.cpp:155-266 configMatchList(origin, indices, lattice_map). -/
def configMatchList (fl : K → K) (len : Coord K → K) (L : LatticeMap) (cfg : Config K) (origin : Nat)
    (indices : List Nat) : M (List (CEntry K)) := do
  let center ← rd cfg.coords origin
  let l ← mapMM (cEntry fl len L cfg center) indices
  return sortC fl l

/-- c++/src/configuration.cpp:107-136 initMatchLists. -/
def initMatchLists (fl : K → K) (len : Coord K → K) (L : LatticeMap) (cfg : Config K) (range : Nat) :
    M (Config K) := do
  let lists ← mapMM (fun i => configMatchList fl len L cfg i (L.neighbourIndices i range))
    (List.range cfg.types.length)
  let mls ← loopM (fun (m : List (List (CEntry K))) (p : Nat × List (CEntry K)) => wr m p.1 p.2)
    ((List.range cfg.types.length).zip lists) cfg.matchLists
  let maxSize := lists.foldl (fun m l => if l.length > m then l.length else m) 0
  return { cfg with matchLists := mls, movedIds := resize cfg.movedIds maxSize 0,
                    moveVectors := resize cfg.moveVectors maxSize 0 }

/-- c++/src/matchlistentry.h:124-141 match. -/
def entryMatches (fl : K → K) (p : PEntry K) (c : CEntry K) : M Bool := do
  let t0 ← rd p.matchTypes 0
  if t0 = 1 then
    return true
  else
    let r ← Bucket.matches? p.matchTypes c.matchTypes
    if r = false then
      return false
    else
      return samePoint fl p c

/-- c++/src/matchlist.h:82-90 the loop of whateverMatch. -/
def matchPrefix (fl : K → K) : List (PEntry K) → List (CEntry K) → M Bool
  | [], _ => .ok true
  | _ :: _, [] => .error .outOfBounds
  | p :: ps, c :: cs => do
    let r ← entryMatches fl p c
    if r = false then return false else matchPrefix fl ps cs

/-- c++/src/matchlist.h:71-91 whateverMatch. -/
def whateverMatch (fl : K → K) (ps : List (PEntry K)) (cs : List (CEntry K)) : M Bool :=
  if cs.length < ps.length then .ok false else matchPrefix fl ps cs

/-- c++/src/interactions.cpp:142-172 the merge loop. -/
def alignLoop (fl : K → K) : List (PEntry K) → List (CEntry K) → Nat → Nat → List Nat →
    M (List (PEntry K) × List Nat × Nat)
  | [], _, old, _, mapping => .ok ([], mapping, old)
  | p :: ps, [], old, _, mapping => .ok (p :: ps, mapping, old)
  | p :: ps, c :: cs, old, new, mapping =>
    if samePoint fl p c = false then do
      let w ← initWildcard c
      let r ← alignLoop fl (p :: ps) cs old (new + 1) mapping
      return (w :: r.1, r.2)
    else do
      let mapping' ← wr mapping old new
      let r ← alignLoop fl ps cs (old + 1) (new + 1) mapping'
      return (p :: r.1, r.2)

/-- c++/src/interactions.cpp:116-185 the body of updateProcessMatchLists for one process. -/
def updateMatchListOf (fl : K → K) (cfg : Config K) (L : LatticeMap) (p : Proc K) : M (Proc K) :=
  match p.basisSites with
  | [basisPosition] => do
    let index ← rd (L.indicesFromCell (L.repA / 2) (L.repB / 2) (L.repC / 2)) basisPosition
    let cml ← rd cfg.matchLists index
    let r ← alignLoop fl p.matchList cml 0 0 (List.replicate cml.length 0)
    let mapping := r.2.1.take r.2.2
    let idMoves ← mapMM (fun (mv : Nat × Nat) => do
      let a ← rd mapping mv.1
      let b ← rd mapping mv.2
      return (a, b)) p.idMoves
    return { p with matchList := r.1, idMoves := idMoves }
  | _ => .ok p

/-- c++/src/interactions.cpp:106-186 updateProcessMatchLists. -/
def updateProcessMatchLists (fl : K → K) (implicitWildcards : Bool) (cfg : Config K) (L : LatticeMap)
    (procs : List (Proc K)) : M (List (Proc K)) :=
  if implicitWildcards = false then .ok procs else mapMM (updateMatchListOf fl cfg L) procs

/-- c++/src/configuration.cpp:296-366 one turn of the loop of performBucketProcess. -/
def performEntry (fl : K → K) (st : Config K × List Nat) (p : PEntry K) (c : CEntry K) :
    M (Config K × List Nat) := do
  let cfg := st.1
  let affected := st.2
  if Config.absSum p.updateTypes > 0 then
    let u0 ← rd p.updateTypes 0
    if ¬ (u0 > 0) then
      let id ← rd cfg.atomId c.index
      let ac ← rd cfg.atomIdCoords id
      let atomIdCoords ← wr cfg.atomIdCoords id (add fl ac p.moveCoord)
      let t ← rd cfg.types c.index
      let t' ← Config.addUpdate t p.updateTypes
      let types ← wr cfg.types c.index t'
      let els ← Config.elementsOf cfg.typeNames t'
      let elements ← wr cfg.elements c.index els
      let atomIdElements ←
        if p.hasMove = false then do
          let e0 ← rd els 0
          wr cfg.atomIdElements id e0
        else pure cfg.atomIdElements
      let affected' ← wr affected cfg.nMoved c.index
      let movedIds ← wr cfg.movedIds cfg.nMoved id
      let moveVectors ← wr cfg.moveVectors cfg.nMoved p.moveCoord
      return ({ cfg with atomIdCoords := atomIdCoords, types := types, elements := elements,
                         atomIdElements := atomIdElements, movedIds := movedIds,
                         moveVectors := moveVectors, nMoved := cfg.nMoved + 1 }, affected')
    else return st
  else return st

/-- c++/src/configuration.cpp:296 the loop itself. -/
def performLoop (fl : K → K) :
    List (PEntry K) → List (CEntry K) → Config K × List Nat → M (Config K × List Nat)
  | [], _, st => .ok st
  | _ :: _, [], _ => .error .outOfBounds
  | p :: ps, c :: cs, st => do
    let st' ← performEntry fl st p c
    performLoop fl ps cs st'

/-- c++/src/configuration.cpp:271-403 performBucketProcess. -/
def perform (fl : K → K) (cfg : Config K) (number : Nat) (pml : List (PEntry K)) (idMoves : List (Nat × Nat))
    (affected : List Nat) (site : Nat) : M (Config K × List Nat) := do
  let sml ← rd cfg.matchLists site
  let cfg1 : Config K := { cfg with latestProcess := number, latestSite := site, nMoved := 0 }
  let st ← performLoop fl pml sml (cfg1, affected)
  let ups ← mapMM (Config.idUpdate st.1 sml) idMoves
  let cfg2 ← loopM Config.applyIdUpdate ups st.1
  return (cfg2, st.2)

/-- c++/src/latticemodel.cpp:86: perform the process at position `i` at the site. -/
def performAt (fl : K → K) (ms : MState K) (i site : Nat) : M (MState K) := do
  let p ← rd ms.procs i
  let r ← perform fl ms.cfg p.number p.matchList p.idMoves p.affected site
  let procs ← wr ms.procs i { p with affected := r.2 }
  return { ms with cfg := r.1, procs := procs }

/-- c++/src/matcher.cpp:220-247: the task type of one pair. -/
def taskType (fl : K → K) (s : MState K) (pair : Nat × Nat) : M Nat := do
  let p ← rd s.procs pair.2
  let row ← rd s.inverse pair.1
  let inList ← rd row pair.2
  let cml ← rd s.cfg.matchLists pair.1
  let isMatch ← whateverMatch fl p.matchList cml
  if isMatch = false ∧ inList = true then return 1
  else if isMatch = true ∧ inList = true then return 2
  else if isMatch = true ∧ inList = false then return 3
  else return 0

/-- c++/src/matcher.cpp:202-297 matchIndicesWithProcesses. -/
def matchPairs (fl : K → K) (env : Env K) (s : MState K) (pairs : List (Nat × Nat)) : M (Matcher.Tasks K) := do
  let types ← Mpi.parMap env.nRanks (taskType fl s) pairs
  Matcher.sortTasks s pairs types

open Matcher in
/-- c++/src/matcher.cpp:41-198 calculateMatching. -/
def calculateMatching (fl : K → K) (env : Env K) (s : MState K) (indices : List Nat) : M (MState K) := do
  let c ← collectPairs env.L s.procs indices s.cfg
  let s1 := { s with cfg := c.2 }
  let tasks ← matchPairs fl env s1 c.1
  let r ← if env.useCustomRates then customRates env s1 tasks else pure (tasks, s.rates)
  let b ← Rounded.updateProcesses fl r.1 (s.procs, s.inverse)
  return { s1 with procs := b.1, inverse := b.2, rates := r.2 }

/-- c++/src/latticemodel.cpp:43-65 calculateInitialMatching; `env.dist` is the length of a coordinate as the program
calculates it. -/
def initialMatching (fl : K → K) (env : Env K) (cfg : Config K) (procs : List (Proc K)) : M (MState K) := do
  let cfg1 ← initMatchLists fl env.dist env.L cfg (Interactions.maxRange procs)
  let procs1 := Interactions.clearMatching procs
  let procs2 ← updateProcessMatchLists fl env.implicitWildcards cfg1 env.L procs1
  let inverse := List.replicate cfg.coords.length (List.replicate procs.length false)
  calculateMatching fl env ⟨cfg1, procs2, inverse, RateTable.empty⟩ (List.range cfg1.elements.length)

/-- c++/src/latticemodel.cpp:23-38 the constructor. -/
def init (fl : K → K) (env : Env K) (cfg : Config K) (procs : List (Proc K)) : M (Sim K) := do
  let ms ← initialMatching fl env cfg procs
  return { ms := ms, table := Rounded.probabilityTable fl ms.procs, time := 0 }

/-- c++/src/latticemodel.cpp:89-95. -/
def rematch (fl : K → K) (env : Env K) (ms : MState K) (i : Nat) : M (MState K) := do
  let p ← rd ms.procs i
  calculateMatching fl env ms (env.L.supersetNeighbourIndices p.affected (Interactions.maxRange ms.procs))

/-- c++/src/latticemodel.cpp:77-99 singleStep. -/
def singleStep (fl : K → K) (env : Env K) (s : Sim K) (u1 u2 : K) : M (Sim K) := do
  let e ← Rounded.select fl s.ms.procs s.table u1 u2
  let ms1 ← performAt fl { s.ms with procs := e.2.2 } e.1 e.2.1
  let ms2 ← rematch fl env ms1 e.1
  return { s with ms := ms2, table := Rounded.probabilityTable fl ms2.procs }

/-- One turn of the main loop. -/
def step (fl : K → K) (env : Env K) (negLog : K → Option K) (s : Sim K) (d : LatticeModel.Draws K) : M (Sim K) := do
  let s1 ← Rounded.propagateTime fl negLog s d.time
  singleStep fl env s1 d.process d.site

/-- A run. -/
def run (fl : K → K) (env : Env K) (negLog : K → Option K) (ds : List (LatticeModel.Draws K)) (s : Sim K) :
    M (Sim K) :=
  loopM (step fl env negLog) ds s

/-- c++/src/matchlist.cpp:107-119 one match list entry. -/
def entryOf (fl : K → K) (len : Coord K → K) (first : Config K) (updates : List Bucket) (origin : Coord K)
    (i : Nat) : M (PEntry K) := do
  let c ← rd first.coords i
  let t ← rd first.types i
  let u ← rd updates i
  return { hasMove := false, distance := len (sub fl c origin), coord := c, moveCoord := 0,
           matchTypes := t, updateTypes := u }

/-- c++/src/process.cpp:80-95: the entry a move vector points to. -/
def moveTarget (fl : K → K) (len : Coord K → K) (l : List (PEntry K)) (i : Nat) (e : PEntry K) : Option Nat :=
  (List.range l.length).find? fun j =>
    match l[j]? with
    | some f => f.hasMove && decide (j ≠ i) &&
        decide (len (sub fl f.coord (add fl e.coord e.moveCoord)) < fl (1 / 1000000))
    | none => false

/-- c++/src/process.cpp:67-97: the id moves of a sorted match list. -/
def idMovesOf (fl : K → K) (len : Coord K → K) (l : List (PEntry K)) : List (Nat × Nat) :=
  (List.range l.length).filterMap fun i =>
    match l[i]? with
    | some e => if e.hasMove then (moveTarget fl len l i e).map (fun j => (i, j)) else none
    | none => none

section
variable [FloorRing K]

/-- c++/src/matchlist.cpp:95, 99, 103: the number of cells needed along one axis. -/
def axisRange (fl : K → K) (x : K) : Nat :=
  (truncInt (if x < 0 then fl (-1 * x + fl (99999 / 100000)) else x)).toNat

/-- c++/src/matchlist.cpp:92-104: the range grows to cover a coordinate. -/
def growRange (fl : K → K) (range : Nat) (c : Coord K) : Nat :=
  max (axisRange fl c.z) (max (axisRange fl c.y) (max (axisRange fl c.x) range))

/-- c++/src/process.cpp:23-98 the constructor of Process, with c++/src/matchlist.cpp:20-137. -/
def mkProcess (fl : K → K) (len : Coord K → K) (first second : Config K) (info : List (List (String × Int)))
    (rate : K) (basisSites : List Nat) (moves : List (Nat × Coord K)) (number : Nat) :
    M (Proc K) := do
  let updates ← updateTypesOf first second info
  let origin ← rd first.coords 0
  let entries ← mapMM (entryOf fl len first updates origin) (List.range first.elements.length)
  let cutoff := entries.foldl (fun m e => if e.distance > m then e.distance else m) 0
  let range := entries.foldl (fun r e => growRange fl r e.coord) 1
  let withMoves ← loopM setMove moves entries
  let sorted := sortP fl withMoves
  return { number := number, custom := false, cacheRate := false,
           bucketProcess := decide (info.length ≠ 0), range := range, rate := rate,
           cutoff := cutoff, basisSites := basisSites, matchList := sorted,
           idMoves := idMovesOf fl len sorted,
           affected := (entries.filter isAffecting).map (fun _ => 0),
           sites := [], siteMult := [], siteRates := [], totalRate := 0, rateTable := [] }
end

end InDouble
end KMC
