import Verif.Model.Basic

/-!
# Model of the parallel helpers (c++/src/mpiroutines.h, mpiroutines.cpp)

The ranks run the same program; between two collective calls they do not interact. A collective
call is modelled as a function of what all ranks bring to it.
-/

namespace KMC
namespace Mpi

/-- c++/src/mpiroutines.cpp:122-131 the loop of determineChunks from chunk `i` on. -/
def chunksLoop (take rest : Nat) : Nat → Nat → Nat → List (Nat × Nat)
  | 0, _, _ => []
  | n + 1, i, sum =>
    let iTake := if i < rest then take + 1 else take
    (sum, iTake) :: chunksLoop take rest n (i + 1) (sum + iTake)

/-- c++/src/mpiroutines.cpp:109-135 determineChunks: (start, length) for each rank. -/
def determineChunks (size n : Nat) : List (Nat × Nat) := chunksLoop (n / size) (n % size) size 0 0

/-- c++/src/mpiroutines.h:90-124 splitOverProcesses on rank `rank` of `size`. -/
def split {α : Type _} (size rank : Nat) (xs : List α) : M (List α) := do
  let chunk ← rd (determineChunks size xs.length) rank
  mapMM (fun i => rd xs (chunk.1 + i)) (List.range chunk.2)

/-- c++/src/mpiroutines.h:152-166: the vector one rank contributes to the sum. -/
def contribution {β : Type _} [Zero β] (size n : Nat) (rank : Nat) (loc : List β) : M (List β) := do
  let chunk ← rd (determineChunks size n) rank
  loopM (fun (d : List β) i => do
    let v ← rd loc i
    wr d (chunk.1 + i) v) (List.range chunk.2) (List.replicate n 0)

/-- c++/src/mpiroutines.h:129-174 joinOverProcesses, given the local vectors of all ranks in rank
order. `MPI_Allreduce` with `MPI_SUM` adds the contributions slot by slot. -/
def join {β : Type _} [Zero β] [Add β] (locals : List (List β)) : M (List β) := do
  let size := locals.length
  let n := locals.foldl (fun s l => s + l.length) 0
  let cs ← mapMM (fun (p : List β × Nat) => contribution size n p.2 p.1) locals.zipIdx
  return cs.foldl (fun a b => List.zipWith (· + ·) a b) (List.replicate n 0)

/-- Split the work, let every rank compute its part, join the results; the pattern of
c++/src/matcher.cpp:153-160 and 210-251. -/
def parMap {α β : Type _} [Zero β] [Add β] (size : Nat) (f : α → M β) (xs : List α) : M (List β) := do
  let locals ← mapMM (fun r => do
    let l ← split size r xs
    mapMM f l) (List.range size)
  join locals

end Mpi
end KMC
