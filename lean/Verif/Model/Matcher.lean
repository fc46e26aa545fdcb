import Verif.Model.Interactions
import Verif.Model.Mpi
import Verif.Model.RateTable

/-!
# Model of `Matcher` (c++/src/matcher.h, matcher.cpp) and of the rate key (c++/src/hash.cpp)
-/

namespace KMC

/-- What is handed to the user's rate calculator: c++/src/matcher.cpp:619-640, one alternative for
backendRateCallback and one for backendRateCallbackBuckets. -/
inductive RateArgs (K : Type _)
  | plain (geometry : List (Coord K)) (before after : List String) (rateConstant : K)
      (processNumber : Nat) (globalCoordinate : Coord K)
  | buckets (geometry : List (Coord K)) (occupations updates : List Bucket)
      (typeNames : List String) (rateConstant : K) (processNumber : Nat)
      (globalCoordinate : Coord K)
  deriving DecidableEq, Repr

/-- What the matching needs from its surroundings: the lattice map, the length function of
coordinates, the number of MPI ranks, the hash function on integer lists and the user's rate
calculator, which is taken to be a function of what it is given. -/
structure Env (K : Type _) where
  L : LatticeMap
  dist : Coord K → K
  nRanks : Nat
  hash : List Int → Nat
  callback : RateArgs K → K
  implicitWildcards : Bool
  useCustomRates : Bool

/-- c++/src/matcher.h RateTask. -/
structure RateTask (K : Type _) where
  index : Nat
  process : Nat
  rate : K
  multiplicity : K
  deriving DecidableEq, Repr

/-- The parts of Matcher, Configuration and Interactions that the matching changes. -/
structure MState (K : Type _) where
  cfg : Config K
  procs : List (Proc K)
  inverse : List (List Bool)
  rates : RateTable K
  deriving DecidableEq, Repr

namespace Matcher
variable {K : Type _} [Field K] [LinearOrder K]

/-- c++/src/matcher.cpp:59-72: the processes to try at one index. -/
def processesFor (L : LatticeMap) (procs : List (Proc K)) (index : Nat) : List Nat :=
  (procs.zipIdx.filter (fun e => decide (L.basisSite index ∈ e.1.basisSites))).map (·.2)

/-- c++/src/matcher.cpp:51-79: the pairs to match, and the configuration with refreshed match lists.
-/
def collectPairs (L : LatticeMap) (procs : List (Proc K)) :
    List Nat → Config K → M (List (Nat × Nat) × Config K)
  | [], cfg => .ok ([], cfg)
  | index :: rest, cfg => do
    let js := processesFor L procs index
    let cfg' ← if js ≠ [] then cfg.updateMatchList index else pure cfg
    let r ← collectPairs L procs rest cfg'
    return (js.map (fun j => (index, j)) ++ r.1, r.2)

/-- c++/src/matcher.cpp:220-247: the task type of one pair (0 when nothing is to be done). -/
def taskType (s : MState K) (pair : Nat × Nat) : M Nat := do
  let p ← rd s.procs pair.2
  let row ← rd s.inverse pair.1
  let inList ← rd row pair.2
  let cml ← rd s.cfg.matchLists pair.1
  let isMatch ← whateverMatch p.matchList cml
  if isMatch = false ∧ inList = true then return 1
  else if isMatch = true ∧ inList = true then return 2
  else if isMatch = true ∧ inList = false then return 3
  else return 0

/-- The three task lists. -/
structure Tasks (K : Type _) where
  remove : List (Nat × Nat)
  update : List (RateTask K)
  add : List (RateTask K)
  deriving DecidableEq, Repr

/-- c++/src/matcher.cpp:272-280: the rate task of a pair. -/
def rateTask (s : MState K) (pair : Nat × Nat) : M (RateTask K) := do
  let p ← rd s.procs pair.2
  let cml ← rd s.cfg.matchLists pair.1
  let m ← multiplicity p.matchList cml
  return { index := pair.1, process := pair.2, rate := p.rate, multiplicity := (m : K) }

/-- c++/src/matcher.cpp:255-294: sort the pairs into the task lists. -/
def sortTasks (s : MState K) : List (Nat × Nat) → List Nat → M (Tasks K)
  | [], _ => .ok ⟨[], [], []⟩
  | _ :: _, [] => .error .outOfBounds
  | pair :: pairs, t :: ts =>
    if t = 1 then do
      let r ← sortTasks s pairs ts
      return { r with remove := pair :: r.remove }
    else if t = 2 then do
      let task ← rateTask s pair
      let r ← sortTasks s pairs ts
      return { r with update := task :: r.update }
    else if t = 3 then do
      let task ← rateTask s pair
      let r ← sortTasks s pairs ts
      return { r with add := task :: r.add }
    else sortTasks s pairs ts

/-- c++/src/matcher.cpp:202-297 matchIndicesWithProcesses. -/
def matchPairs (env : Env K) (s : MState K) (pairs : List (Nat × Nat)) : M (Tasks K) := do
  let types ← Mpi.parMap env.nRanks (taskType s) pairs
  sortTasks s pairs types

/-- c++/src/matcher.cpp:541-549 and c++/src/hash.cpp:133-141: the leading entries within the cutoff.
The code reads the entry one past the end before testing for the end; that value is not used. -/
def withinCutoff (cutoff : K) (l : List (CEntry K)) : List (CEntry K) :=
  l.takeWhile (fun e => decide (e.distance ≤ cutoff))

/-- c++/src/hash.cpp:115-145 hashCustomRateInput: the integers that are hashed. -/
def keyData (cfg : Config K) (p : Proc K) (index : Nat) : M (List Int) := do
  let cml ← rd cfg.matchLists index
  return (p.number : Int) :: (withinCutoff p.cutoff cml).flatMap (fun e => e.matchTypes)

/-- c++/src/hash.cpp:115-145 hashCustomRateInput. -/
def rateKey (env : Env K) (cfg : Config K) (p : Proc K) (index : Nat) : M Nat := do
  let d ← keyData cfg p index
  return env.hash d

/-- c++/src/matcher.cpp:556-569: the element shown to the rate calculator for one entry. -/
def firstElement (cfg : Config K) (e : CEntry K) : M String := do
  let els ← rd cfg.elements e.index
  rd els 0

/-- c++/src/matcher.cpp:566-568: the occupation shown for one entry. -/
def occupation (cfg : Config K) (e : CEntry K) : M Bucket := rd cfg.types e.index

/-- c++/src/matcher.cpp:596-604: the first type with update one. -/
def firstOne (u : Bucket) : Option Nat := u.findIdx? (fun v => decide (v = 1))

/-- c++/src/matcher.cpp:576-607 one turn of the loop over the process match list, at position `i`.
State: (update, types_after). -/
def afterStep (cfg : Config K) (st : List Bucket × List String) (e : PEntry K × Nat) :
    M (List Bucket × List String) := do
  let update ← wr st.1 e.2 e.1.updateTypes
  if Config.absSum e.1.updateTypes ≠ 0 then
    let isWild ← Bucket.isSingle e.1.updateTypes 0
    if isWild = false then
      match firstOne e.1.updateTypes with
      | some j =>
        let name ← rd cfg.typeNames j
        let after ← wr st.2 e.2 name
        return (update, after)
      | none => return (update, st.2)
    else return (update, st.2)
  else return (update, st.2)

/-- c++/src/matcher.cpp:526-642 updateSingleRate up to the call of the rate calculator. -/
def rateArgs (cfg : Config K) (p : Proc K) (index : Nat) : M (RateArgs K) := do
  let cml ← rd cfg.matchLists index
  let near := withinCutoff p.cutoff cml
  let before ← mapMM (firstElement cfg) near
  let occ ← mapMM (occupation cfg) near
  let occ0 ← rd occ 0
  let st ← loopM (afterStep cfg) p.matchList.zipIdx
    (List.replicate near.length (Bucket.zeros occ0.length), before)
  let g ← rd cfg.coords index
  if p.bucketProcess = false then
    return .plain (near.map (·.coord)) before st.2 p.rate p.number g
  else
    return .buckets (near.map (·.coord)) occ st.1 cfg.typeNames p.rate p.number g

/-- c++/src/matcher.cpp:501-642 updateRates, updateSingleRate: the rate of one task. -/
def taskRate (env : Env K) (s : MState K) (t : RateTask K) : M K := do
  let p ← rd s.procs t.process
  let a ← rateArgs s.cfg p t.index
  return env.callback a

/-- A task whose rate is not stored: its position in its list, the task, the key and the process
number; c++/src/matcher.cpp:119-122 and 142-145. -/
structure Pending (K : Type _) where
  pos : Nat
  task : RateTask K
  key : Nat
  number : Nat
  deriving DecidableEq, Repr

/-- c++/src/matcher.cpp:105-124 (and 128-147): fill in stored rates, collect the other tasks. `i` is
the position of the head of the list. -/
def lookupTasks (env : Env K) (s : MState K) : Nat → List (RateTask K) →
    M (List (RateTask K) × List (Pending K))
  | _, [] => .ok ([], [])
  | i, t :: ts => do
    let p ← rd s.procs t.process
    let key ← rateKey env s.cfg p t.index
    match s.rates.stored key with
    | some _ =>
      let v ← s.rates.retrieve key
      let r ← lookupTasks env s (i + 1) ts
      return ({ t with rate := v } :: r.1, r.2)
    | none =>
      let r ← lookupTasks env s (i + 1) ts
      return (t :: r.1, ⟨i, t, key, p.number⟩ :: r.2)

/-- c++/src/matcher.cpp:164-175: copy the computed rates into a task list. -/
def writeBack (tasks : List (RateTask K)) : List (Pending K) → List K → M (List (RateTask K))
  | [], _ => .ok tasks
  | _ :: _, [] => .error .outOfBounds
  | p :: ps, r :: rs => do
    let t ← rd tasks p.pos
    let tasks' ← wr tasks p.pos { t with rate := r }
    writeBack tasks' ps rs

/-- c++/src/matcher.cpp:178-188: store the computed rates of processes that allow it. -/
def storeRates (procs : List (Proc K)) : List (Pending K × K) → RateTable K → M (RateTable K) :=
  loopM (fun (rt : RateTable K) (e : Pending K × K) => do
    let p ← rd procs e.1.number
    if p.cacheRate then rt.store e.1.key e.2 else pure rt)

/-- c++/src/matcher.cpp:96-189: new rates for the tasks. -/
def customRates (env : Env K) (s : MState K) (tasks : Tasks K) : M (Tasks K × RateTable K) := do
  let a ← lookupTasks env s 0 tasks.add
  let u ← lookupTasks env s 0 tasks.update
  let pending := a.2 ++ u.2
  let rates ← Mpi.parMap env.nRanks (fun e : Pending K => taskRate env s e.task) pending
  let add ← writeBack a.1 a.2 rates
  let update ← writeBack u.1 u.2 (rates.drop a.2.length)
  let rt ← storeRates s.procs (pending.zip rates) s.rates
  return ({ tasks with add := add, update := update }, rt)

/-- Change the process at a position. -/
def modifyProc (procs : List (Proc K)) (i : Nat) (f : Proc K → M (Proc K)) : M (List (Proc K)) := do
  let p ← rd procs i
  let p' ← f p
  wr procs i p'

/-- `inverse_table_[index][p_idx] = b`. -/
def setInverse (table : List (List Bool)) (index p : Nat) (b : Bool) : M (List (List Bool)) := do
  let row ← rd table index
  let row' ← wr row p b
  wr table index row'

/-- The processes and the inverse table. -/
abbrev Book (K : Type _) := List (Proc K) × List (List Bool)

/-- c++/src/matcher.cpp:469-475 one removal. -/
def removeTask (b : Book K) (t : Nat × Nat) : M (Book K) := do
  let procs ← modifyProc b.1 t.2 (fun p => p.removeSite t.1)
  let inv ← setInverse b.2 t.1 t.2 false
  return (procs, inv)

/-- c++/src/matcher.cpp:478-485 one update. The multiplicity argument of addSite is not given, so
it is the default 1 (c++/src/process.h:78). -/
def updateTask (b : Book K) (t : RateTask K) : M (Book K) := do
  let procs ← modifyProc b.1 t.process (fun p => p.removeSite t.index)
  let procs' ← modifyProc procs t.process (fun p => .ok (p.addSite t.index t.rate 1))
  return (procs', b.2)

/-- c++/src/matcher.cpp:488-495 one addition; the multiplicity is again the default 1. -/
def addTask (b : Book K) (t : RateTask K) : M (Book K) := do
  let procs ← modifyProc b.1 t.process (fun p => .ok (p.addSite t.index t.rate 1))
  let inv ← setInverse b.2 t.index t.process true
  return (procs, inv)

/-- c++/src/matcher.cpp:461-496 updateProcesses. -/
def updateProcesses (tasks : Tasks K) (b : Book K) : M (Book K) := do
  let b1 ← loopM removeTask tasks.remove b
  let b2 ← loopM updateTask tasks.update b1
  loopM addTask tasks.add b2

/-- c++/src/matcher.cpp:41-198 calculateMatching. -/
def calculateMatching (env : Env K) (s : MState K) (indices : List Nat) : M (MState K) := do
  let c ← collectPairs env.L s.procs indices s.cfg
  let s1 := { s with cfg := c.2 }
  let tasks ← matchPairs env s1 c.1
  let r ← if env.useCustomRates then customRates env s1 tasks else pure (tasks, s.rates)
  let b ← updateProcesses r.1 (s.procs, s.inverse)
  return { s1 with procs := b.1, inverse := b.2, rates := r.2 }

end Matcher
end KMC
