import Verif.Model.LatticeModel
import Verif.Model.PyProcess

/-!
# Several models made from one interactions object

`LatticeModel` copies the `Interactions` it is given (c++/src/latticemodel.cpp:23-31). The copy is the one the
compiler writes: it copies the vectors of processes and the vector of pointers to them, and the pointers still
point into the original (c++/src/interactions.cpp:41-59; interactions.h has no copy constructor). All work is done
through the pointers. The front end makes one back end object and keeps it
(python/src/KMCLib/CoreComponents/KMCInteractions.py:159, 273; KMCLatticeModel.py:72-88), so all models made from one
`KMCInteractions` use the same processes. Their probability tables are their own.
-/

namespace KMC

/-- The processes, and the models that use them. The processes recorded inside a model are not used. -/
structure Room (K : Type _) where
  procs : List (Proc K)
  models : List (Env K × Sim K)

namespace Room
variable {K : Type _} [Field K] [LinearOrder K]

/-- c++/src/latticemodel.cpp:23-38: a new model. -/
def construct (env : Env K) (cfg : Config K) (r : Room K) : M (Room K) := do
  let s ← LatticeModel.init env cfg r.procs
  return ⟨s.ms.procs, r.models ++ [(env, s)]⟩

/-- The model at position `i` with the processes as they are now. -/
def view (r : Room K) (i : Nat) : M (Env K × Sim K) := do
  let m ← rd r.models i
  return (m.1, { m.2 with ms := { m.2.ms with procs := r.procs } })

/-- One step of the model at position `i`. -/
def step (negLog : K → Option K) (i : Nat) (r : Room K) (d : LatticeModel.Draws K) : M (Room K) := do
  let m ← r.view i
  let s ← LatticeModel.step m.1 negLog m.2 d
  let models ← wr r.models i (m.1, s)
  return ⟨s.ms.procs, models⟩

/-- Several steps of the same model. -/
def run (negLog : K → Option K) (i : Nat) (ds : List (LatticeModel.Draws K)) (r : Room K) : M (Room K) :=
  loopM (step negLog i) ds r

end Room

/-- KMCInteractions.py:50-66: the processes, and the back end processes once they have been made. -/
structure PyInteractions (K : Type _) where
  processes : List (PyProc K)
  cache : Option (List (Proc K))

namespace PyInteractions
variable {K : Type _} [Field K] [LinearOrder K] [FloorRing K]

/-- KMCInteractions.py:144-273 _backend without a rate calculator: the stored object if there is one, whatever the
arguments; otherwise the processes are made for this numbering of the types and stored. -/
def backend (dist : Coord K → K) (pt : List (String × Nat)) (nBasis : Nat) (p : PyInteractions K) :
    M (List (Proc K) × PyInteractions K) :=
  match p.cache with
  | some procs => .ok (procs, p)
  | none => do
    let procs ← mapMM (fun (x : PyProc K × Nat) => x.1.backend dist pt nBasis x.2) p.processes.zipIdx
    return (procs, { p with cache := some procs })

end PyInteractions
end KMC
