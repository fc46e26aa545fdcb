import Verif.Model.PyTypes
import Verif.Model.PyProcess

/-!
# Model of `KMCBucketProcess` and of the list of processes in `KMCInteractions`
(python/src/KMCLib/CoreComponents/KMCBucketProcess.py, KMCBaseProcess.py, KMCLocalConfiguration.py and
KMCInteractions.py:146-260)
-/

namespace KMC

/-- KMCBucketProcess.py:48-83 the data of a bucket process. The update information is stored as it was
given (KMCBucketProcess.py:88-98 does not check it). -/
structure PyBucket (K : Type _) where
  coords : List (Coord K)
  minimum : List (List (List Py))
  update : List Py
  basisSites : List Nat
  rate : K

namespace PyBucket
open Py

section
variable {K : Type _} [Field K] [LinearOrder K]

/-- KMCBucketProcess.py:24-86 the constructor, with KMCBaseProcess.py:24-75. The coordinates are not
sorted. The local configuration that is made at the end (line 82) normalises the entries once more. -/
def make (coords : List (Coord K)) (minimum update : List Py) (basisSites : List Int) (rate : K) :
    M (PyBucket K) := do
  let cs ← PyProc.centre coords
  if basisSites = [] ∨ basisSites.any (fun b => decide (b < 0)) then .error .exception
  else if rate < 0 then .error .exception
  else do
    let m ← mapMM BucketInput.normalise minimum
    if m.length ≠ coords.length then .error .exception
    else do
      let again ← mapMM (fun t : List (List Py) => BucketInput.normalise (.lst (t.map .tup))) m
      return { coords := cs, minimum := again, update := update, basisSites := basisSites.map Int.toNat,
               rate := rate }

end

/-- KMCBucketProcess.py:63-72 the types present: the second items of the pairs. The types of the update
information are not among them. -/
def presentTypes (minimum : List (List (List Py))) : M (List Py) := mapMM (fun e => item e 1) minimum.flatten

/-- `cpp_map[name] = n` on a `std::map<std::string,int>`. The order of the entries does not matter: the map
is only read to set one slot for each name (c++/src/matchlist.cpp:45-53). -/
def assign (m : List (String × Int)) (name : String) (n : Int) : List (String × Int) :=
  m.filter (fun e => decide (e.1 ≠ name)) ++ [(name, n)]

/-- KMCBucketProcess.py:114-115 one item `e` of an update entry: `cpp_map[e[1]] = e[0]`. SWIG rejects a key
that is not a string and a value that is not an integer. -/
def updateItem (m : List (String × Int)) (e : Py) : M (List (String × Int)) :=
  let set (l : List Py) : M (List (String × Int)) := do
    let n ← item l 0
    let s ← item l 1
    match n, s with
    | .int n, .str s => .ok (assign m s n)
    | _, _ => .error .exception
  match e with
  | .tup l => set l
  | .lst l => set l
  | _ => .error .exception

/-- KMCBucketProcess.py:110-118 the map of one site. Only lists and tuples of pairs are modelled; anything
else raises (a string would be taken apart into characters, which have no item 1). -/
def updateEntry : Py → M (List (String × Int))
  | .lst l => loopM updateItem l []
  | .tup l => loopM updateItem l []
  | .str s => if s = "" then .ok [] else .error .indexError
  | _ => .error .exception

section
variable {K : Type _} [Field K] [LinearOrder K] [FloorRing K]

/-- The calculator that custom rates come from, as far as the processes depend on it:
KMCRateCalculatorPlugin.py:130-170 cutoff, cacheRates, excludeFromCaching. -/
structure _root_.KMC.Calculator (K : Type _) where
  cutoff : Option K
  cacheRates : Bool
  exclude : List Nat

/-- KMCInteractions.py:232-258 the back end process, with or without a rate calculator. -/
def _root_.KMC.Calculator.process (rc : Option (Calculator K)) (dist : Coord K → K) (first second : Config K)
    (info : List (List (String × Int))) (rate : K) (basis : List Nat) (moves : List (Nat × Coord K)) (number : Nat) :
    M (Proc K) :=
  match rc with
  | some c => mkCustomProcess dist first second info rate basis (c.cutoff.getD 1) moves number
      (c.cacheRates && !decide (number ∈ c.exclude))
  | none => mkProcess dist first second info rate basis moves number

/-- KMCInteractions.py:198-258 the back end process of a bucket process: the second configuration is the
first one with the update information set on it (209-211). -/
def backend (rc : Option (Calculator K)) (dist : Coord K → K) (pt : List (String × Nat)) (nBasis number : Nat)
    (p : PyBucket K) : M (Proc K) := do
  let cs ← PyProc.centre p.coords
  let els ← BucketInput.expand p.minimum
  let first ← Config.mk' cs els pt
  let info ← mapMM updateEntry p.update
  Calculator.process rc dist first first info p.rate (p.basisSites.filter (fun b => decide (b < nBasis))) [] number

end
end PyBucket

/-- A process of the front end. -/
inductive PyProcess (K : Type _)
  | plain (p : PyProc K)
  | bucket (p : PyBucket K)

namespace PyProcess
variable {K : Type _} [Field K] [LinearOrder K] [FloorRing K]

/-- KMCInteractions.py:163-166 all types of a process are possible types. -/
def typesKnown (pt : List (String × Nat)) : PyProcess K → M Bool
  | .plain p => .ok ((p.before ++ p.after).all (fun e => decide (e ∈ pt.map Prod.fst)))
  | .bucket p => do
    let l ← PyBucket.presentTypes p.minimum
    return l.all (fun e => match e with
      | .str s => decide (s ∈ pt.map Prod.fst)
      | _ => false)

/-- KMCInteractions.py:198-258 the back end process. -/
def backend (rc : Option (Calculator K)) (dist : Coord K → K) (pt : List (String × Nat)) (nBasis number : Nat) :
    PyProcess K → M (Proc K)
  | .plain p => do
    let cs ← PyProc.centre p.coords
    let first ← Config.mk' cs (p.before.map (fun e => [e])) pt
    let second ← Config.mk' cs (p.after.map (fun e => [e])) pt
    Calculator.process rc dist first second [] p.rate (p.basisSites.filter (fun b => decide (b < nBasis))) p.moves number
  | .bucket p => p.backend rc dist pt nBasis number

/-- KMCInteractions.py:146-267 _backend: the types of all processes are checked first, then the back end
processes are made in order. An interactions object has at least one process (45). -/
def interactions (rc : Option (Calculator K)) (dist : Coord K → K) (pt : List (String × Nat)) (nBasis : Nat)
    (ps : List (PyProcess K)) : M (List (Proc K)) := do
  if ps.isEmpty then .error .exception
  else do
    let ok ← mapMM (typesKnown pt) ps
    if ok.all id = false then .error .exception
    else mapMM (fun x : PyProcess K × Nat => x.1.backend rc dist pt nBasis x.2) ps.zipIdx

end PyProcess
end KMC
