import Verif.Model.Matcher

/-!
# Model of `LatticeModel` (c++/src/latticemodel.cpp) and `SimulationTimer`
(c++/src/simulationtimer.cpp)
-/

namespace KMC

/-- A simulation: matcher, configuration, processes, probability table and clock. -/
structure Sim (K : Type _) where
  ms : MState K
  table : List (K × Nat)
  time : K
  deriving DecidableEq, Repr

namespace LatticeModel
variable {K : Type _} [Field K] [LinearOrder K]

/-- c++/src/latticemodel.cpp:43-65 calculateInitialMatching, with the matcher constructed at line 31.
-/
def initialMatching (env : Env K) (cfg : Config K) (procs : List (Proc K)) : M (MState K) := do
  let cfg1 ← cfg.initMatchLists env.dist env.L (Interactions.maxRange procs)
  let procs1 := Interactions.clearMatching procs
  let procs2 ← Interactions.updateProcessMatchLists env.implicitWildcards cfg1 env.L procs1
  let inverse := List.replicate cfg.coords.length (List.replicate procs.length false)
  Matcher.calculateMatching env ⟨cfg1, procs2, inverse, RateTable.empty⟩
    (List.range cfg1.elements.length)

/-- c++/src/latticemodel.cpp:23-38 the constructor; the timer starts at zero
(simulationtimer.cpp:19-23). -/
def init (env : Env K) (cfg : Config K) (procs : List (Proc K)) : M (Sim K) := do
  let ms ← initialMatching env cfg procs
  return { ms := ms, table := Interactions.probabilityTable ms.procs, time := 0 }

/-- c++/src/latticemodel.cpp:79-83: select a process and a site. Gives the position of the process in
the list, the site, and the processes with the rate table of the selected one refreshed. `u1`, `u2`
are the random numbers drawn. -/
def select (procs : List (Proc K)) (table : List (K × Nat)) (u1 u2 : K) :
    M (Nat × Nat × List (Proc K)) := do
  let pk ← Interactions.pickProcess procs table u1
  let site ← pk.2.1.pickSite u2
  return (pk.1, site, pk.2.2)

/-- c++/src/latticemodel.cpp:86: perform the process at position `i` at the site. -/
def performAt (ms : MState K) (i site : Nat) : M (MState K) := do
  let p ← rd ms.procs i
  let r ← ms.cfg.perform p.number p.matchList p.idMoves p.affected site
  let procs ← wr ms.procs i { p with affected := r.2 }
  return { ms with cfg := r.1, procs := procs }

/-- c++/src/latticemodel.cpp:89-95: re-match around the affected indices of process `i`. -/
def rematch (env : Env K) (ms : MState K) (i : Nat) : M (MState K) := do
  let p ← rd ms.procs i
  Matcher.calculateMatching env ms
    (env.L.supersetNeighbourIndices p.affected (Interactions.maxRange ms.procs))

/-- c++/src/latticemodel.cpp:77-99 singleStep. -/
def singleStep (env : Env K) (s : Sim K) (u1 u2 : K) : M (Sim K) := do
  let e ← select s.ms.procs s.table u1 u2
  let ms1 ← performAt { s.ms with procs := e.2.2 } e.1 e.2.1
  let ms2 ← rematch env ms1 e.1
  return { s with ms := ms2, table := Interactions.probabilityTable ms2.procs }

/-- c++/src/simulationtimer.cpp:35-39: the time step for one random number, `none` when it is
infinite. `negLog u` is `-log u`, `none` at zero where it is infinite. A finite positive number over
zero is infinite as well. (0/0 would need `log u = 0`, but random numbers are below one.) -/
def timeStep (negLog : K → Option K) (totalRate u : K) : Option K :=
  match negLog u with
  | none => none
  | some l => if totalRate = 0 then none else some (l / totalRate)

/-- c++/src/simulationtimer.cpp:28-40 the do-while loop: draw until the step is finite. The list is
the stream of random numbers, as far as it is looked at; `diverges` means that the loop is still
running at its end. -/
def drawStep (negLog : K → Option K) (totalRate : K) : List K → M K
  | [] => .error .diverges
  | u :: us =>
    match timeStep negLog totalRate u with
    | some dt => .ok dt
    | none => drawStep negLog totalRate us

/-- c++/src/latticemodel.cpp:69-73 propagateTime, c++/src/simulationtimer.cpp:39. -/
def propagateTime (negLog : K → Option K) (s : Sim K) (draws : List K) : M (Sim K) := do
  let r ← Interactions.totalRate s.table
  let dt ← drawStep negLog r draws
  return { s with time := s.time + dt }

/-- The random numbers of one step. -/
structure Draws (K : Type _) where
  time : List K
  process : K
  site : K

/-- One turn of the main loop of the front end, python/src/KMCLib/CoreComponents/KMCLatticeModel.py:
propagateTime then singleStep. -/
def step (env : Env K) (negLog : K → Option K) (s : Sim K) (d : Draws K) : M (Sim K) := do
  let s1 ← propagateTime negLog s d.time
  singleStep env s1 d.process d.site

/-- A run. -/
def run (env : Env K) (negLog : K → Option K) (ds : List (Draws K)) (s : Sim K) : M (Sim K) :=
  loopM (step env negLog) ds s

end LatticeModel
end KMC
