import Verif.Model.LatticeModel

/-!
# The calculations with rates and indices, with rounding

The other files take `double` to be exact. Here the results of the operations `+`, `-`, `*`, `/` on `double`s are
rounded by a function `fl`; `Verif/Model/Double` has the rounding of the hardware. With `fl = id` each definition is the
one of the same name in the other files (`Verif/Props/Rounded`). Rounding of coordinates and distances is not
modelled. The rates of a calculator are what it returns.
-/

namespace KMC

namespace LatticeMap

/-- c++/src/latticemap.cpp:276-302 indexToCell with rounding. Integers up to 2^53 are converted exactly. -/
def indexToCellFl (fl : ℚ → ℚ) (L : LatticeMap) (index : Nat) : Int × Int × Int :=
  let eps : ℚ := fl (1 / 1000000000)
  let idx : Int := (index / L.nBasis : Nat) + 1
  let factorI : Int := (L.repB : Int) * L.repC
  let ii : Int := truncInt (fl (fl ((idx : ℚ) - eps) / (factorI : ℚ)))
  let ci : Int := ii * factorI
  let factorJ : Int := L.repC
  let idxJ : Int := idx - ci
  let jj : Int := truncInt (fl (fl ((idxJ : ℚ) - eps) / (factorJ : ℚ)))
  let cij : Int := ci + jj * factorJ
  let idxK : Int := idx - cij
  let kk : Int := truncInt (fl ((idxK : ℚ) - eps))
  (ii, jj, kk)

/-- c++/src/latticemap.cpp:65-151 the loops of neighbourIndices, for a given central cell. -/
def neighboursOfCell (L : LatticeMap) (c : Int × Int × Int) (shells : Nat) : List Nat :=
  (cellRange c.1 shells).flatMap fun i =>
    let ii := wrapCell L.perA L.repA i
    if ii ≥ 0 ∧ ii < L.repA then
      (cellRange c.2.1 shells).flatMap fun j =>
        let jj := wrapCell L.perB L.repB j
        if jj ≥ 0 ∧ jj < L.repB then
          (cellRange c.2.2 shells).flatMap fun k =>
            let kk := wrapCell L.perC L.repC k
            if 0 ≤ kk ∧ kk < L.repC then
              L.indicesFromCell ii.toNat jj.toNat kk.toNat
            else []
        else []
    else []

/-- c++/src/latticemap.cpp:54-151 neighbourIndices with rounding. -/
def neighbourIndicesFl (fl : ℚ → ℚ) (L : LatticeMap) (index shells : Nat) : List Nat :=
  L.neighboursOfCell (L.indexToCellFl fl index) shells

end LatticeMap

namespace Rounded
variable {K : Type _} [Field K] [LinearOrder K]

/-- c++/src/process.cpp:103-110 and customrateprocess.cpp:51-59 addSite. -/
def addSite (fl : K → K) (p : Proc K) (index : Nat) (rate : K) (mult : K) : Proc K :=
  if p.custom then
    { p with sites := p.sites ++ [index], siteMult := p.siteMult ++ [mult],
             siteRates := p.siteRates ++ [rate], totalRate := fl (p.totalRate + fl (mult * rate)) }
  else
    { p with sites := p.sites ++ [index], siteMult := p.siteMult ++ [mult],
             totalRate := fl (p.totalRate + fl (mult * p.rate)) }

/-- c++/src/process.cpp:115-136 and customrateprocess.cpp:64-101 removeSite. -/
def removeSite (fl : K → K) (p : Proc K) (index : Nat) : M (Proc K) :=
  match p.sites.findIdx? (fun s => decide (s = index)) with
  | none => .error .outOfBounds
  | some i =>
    if p.custom then do
      let s ← swapPop p.sites i
      let r ← swapPop p.siteRates i
      let m ← swapPop p.siteMult i
      return { p with sites := s.2, siteRates := r.2, siteMult := m.2,
                      totalRate := fl (p.totalRate - fl (r.1 * m.1)) }
    else do
      let s ← swapPop p.sites i
      let m ← swapPop p.siteMult i
      return { p with sites := s.2, siteMult := m.2, totalRate := fl (p.totalRate - fl (m.1 * p.rate)) }

/-- c++/src/process.cpp:194-199. -/
def prefixSums (fl : K → K) (previous : K) : List K → List K
  | [] => []
  | t :: ts => fl (previous + t) :: prefixSums fl (fl (previous + t)) ts

/-- c++/src/process.cpp:190-202 and customrateprocess.cpp:106-118 updateRateTable. -/
def updateRateTable (fl : K → K) (p : Proc K) : M (Proc K) :=
  if p.custom then do
    let t ← Proc.customTerms p.siteRates p.siteMult
    return { p with rateTable := prefixSums fl 0 (t.map fl) }
  else .ok { p with rateTable := prefixSums fl 0 (p.siteMult.map fun m => fl (p.rate * m)) }

/-- c++/src/process.cpp:152-176 pickSite. -/
def pickSite (fl : K → K) (p : Proc K) (u : K) : M Nat :=
  match p.rateTable.getLast? with
  | none => .error .outOfBounds
  | some total =>
    let rnd := fl (u * total)
    rd p.sites (lowerBound (fun x => decide (x < rnd)) p.rateTable)

/-- c++/src/interactions.cpp:205-224 updateProbabilityTable. -/
def probabilityLoop (fl : K → K) (previous : K) : List (Proc K) → List (K × Nat)
  | [] => []
  | p :: ps => (fl (p.totalRate + previous), p.sites.length) :: probabilityLoop fl (fl (previous + p.totalRate)) ps

/-- c++/src/interactions.cpp:205-224 updateProbabilityTable. -/
def probabilityTable (fl : K → K) (procs : List (Proc K)) : List (K × Nat) := probabilityLoop fl 0 procs

/-- c++/src/interactions.cpp:229-254 pickProcessIndex. -/
def pickProcessIndex (fl : K → K) (table : List (K × Nat)) (u : K) : M Nat := do
  let total ← Interactions.totalRate table
  let rndPair : K × Nat := (fl (u * total), 1)
  return lowerBound (fun e => Interactions.pairComp e rndPair) table

/-- c++/src/interactions.cpp:259-267 pickProcess. -/
def pickProcess (fl : K → K) (procs : List (Proc K)) (table : List (K × Nat)) (u : K) :
    M (Nat × Proc K × List (Proc K)) := do
  let i ← pickProcessIndex fl table u
  let p ← rd procs i
  let p' ← updateRateTable fl p
  let procs' ← wr procs i p'
  return (i, p', procs')

open Matcher in
/-- c++/src/matcher.cpp:469-475 one removal. -/
def removeTask (fl : K → K) (b : Book K) (t : Nat × Nat) : M (Book K) := do
  let procs ← modifyProc b.1 t.2 (fun p => removeSite fl p t.1)
  let inv ← setInverse b.2 t.1 t.2 false
  return (procs, inv)

open Matcher in
/-- c++/src/matcher.cpp:478-485 one update. -/
def updateTask (fl : K → K) (b : Book K) (t : RateTask K) : M (Book K) := do
  let procs ← modifyProc b.1 t.process (fun p => removeSite fl p t.index)
  let procs' ← modifyProc procs t.process (fun p => .ok (addSite fl p t.index t.rate 1))
  return (procs', b.2)

open Matcher in
/-- c++/src/matcher.cpp:488-495 one addition. -/
def addTask (fl : K → K) (b : Book K) (t : RateTask K) : M (Book K) := do
  let procs ← modifyProc b.1 t.process (fun p => .ok (addSite fl p t.index t.rate 1))
  let inv ← setInverse b.2 t.index t.process true
  return (procs, inv)

open Matcher in
/-- c++/src/matcher.cpp:461-496 updateProcesses. -/
def updateProcesses (fl : K → K) (tasks : Tasks K) (b : Book K) : M (Book K) := do
  let b1 ← loopM (removeTask fl) tasks.remove b
  let b2 ← loopM (updateTask fl) tasks.update b1
  loopM (addTask fl) tasks.add b2

open Matcher in
/-- c++/src/matcher.cpp:41-198 calculateMatching. -/
def calculateMatching (fl : K → K) (env : Env K) (s : MState K) (indices : List Nat) : M (MState K) := do
  let c ← collectPairs env.L s.procs indices s.cfg
  let s1 := { s with cfg := c.2 }
  let tasks ← matchPairs env s1 c.1
  let r ← if env.useCustomRates then customRates env s1 tasks else pure (tasks, s.rates)
  let b ← updateProcesses fl r.1 (s.procs, s.inverse)
  return { s1 with procs := b.1, inverse := b.2, rates := r.2 }

/-- c++/src/latticemodel.cpp:43-65 calculateInitialMatching. -/
def initialMatching (fl : K → K) (env : Env K) (cfg : Config K) (procs : List (Proc K)) : M (MState K) := do
  let cfg1 ← cfg.initMatchLists env.dist env.L (Interactions.maxRange procs)
  let procs1 := Interactions.clearMatching procs
  let procs2 ← Interactions.updateProcessMatchLists env.implicitWildcards cfg1 env.L procs1
  let inverse := List.replicate cfg.coords.length (List.replicate procs.length false)
  calculateMatching fl env ⟨cfg1, procs2, inverse, RateTable.empty⟩ (List.range cfg1.elements.length)

/-- c++/src/latticemodel.cpp:23-38 the constructor. -/
def init (fl : K → K) (env : Env K) (cfg : Config K) (procs : List (Proc K)) : M (Sim K) := do
  let ms ← initialMatching fl env cfg procs
  return { ms := ms, table := probabilityTable fl ms.procs, time := 0 }

/-- c++/src/latticemodel.cpp:79-83: select a process and a site. -/
def select (fl : K → K) (procs : List (Proc K)) (table : List (K × Nat)) (u1 u2 : K) :
    M (Nat × Nat × List (Proc K)) := do
  let pk ← pickProcess fl procs table u1
  let site ← pickSite fl pk.2.1 u2
  return (pk.1, site, pk.2.2)

/-- c++/src/latticemodel.cpp:89-95. -/
def rematch (fl : K → K) (env : Env K) (ms : MState K) (i : Nat) : M (MState K) := do
  let p ← rd ms.procs i
  calculateMatching fl env ms (env.L.supersetNeighbourIndices p.affected (Interactions.maxRange ms.procs))

/-- c++/src/latticemodel.cpp:77-99 singleStep. -/
def singleStep (fl : K → K) (env : Env K) (s : Sim K) (u1 u2 : K) : M (Sim K) := do
  let e ← select fl s.ms.procs s.table u1 u2
  let ms1 ← LatticeModel.performAt { s.ms with procs := e.2.2 } e.1 e.2.1
  let ms2 ← rematch fl env ms1 e.1
  return { s with ms := ms2, table := probabilityTable fl ms2.procs }

/-- c++/src/simulationtimer.cpp:28-40; `negLog` includes the rounding of the logarithm. -/
def drawStep (fl : K → K) (negLog : K → Option K) (totalRate : K) : List K → M K
  | [] => .error .diverges
  | u :: us =>
    match LatticeModel.timeStep negLog totalRate u with
    | some dt => .ok (fl dt)
    | none => drawStep fl negLog totalRate us

/-- c++/src/latticemodel.cpp:69-73 propagateTime. -/
def propagateTime (fl : K → K) (negLog : K → Option K) (s : Sim K) (draws : List K) : M (Sim K) := do
  let r ← Interactions.totalRate s.table
  let dt ← drawStep fl negLog r draws
  return { s with time := fl (s.time + dt) }

/-- One turn of the main loop. -/
def step (fl : K → K) (env : Env K) (negLog : K → Option K) (s : Sim K) (d : LatticeModel.Draws K) : M (Sim K) := do
  let s1 ← propagateTime fl negLog s d.time
  singleStep fl env s1 d.process d.site

/-- A run. -/
def run (fl : K → K) (env : Env K) (negLog : K → Option K) (ds : List (LatticeModel.Draws K)) (s : Sim K) :
    M (Sim K) :=
  loopM (step fl env negLog) ds s

end Rounded
end KMC
