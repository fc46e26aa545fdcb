import Verif.Model.Basic

/-!
# Model of the trajectories (python/src/KMCLib/Utilities/Trajectory)

Objects are records; a method gives the object afterwards, also when it raises, so that what has been written to
the file before an exception stays there. Readings of the wall clock and the sizes of Python objects are
inputs. The file is a list of lines with their content; number formats and row breaks are left out. The lists that
the back end returns are copies.
-/

namespace KMC
namespace Traj

/-- What a subclass of `Trajectory` defines (Trajectory.py:54-61): `_storeData`, `_bufferSize`, `flush`. -/
structure Writer (B F : Type _) where
  store : F → B → B
  size : B → Nat
  flush : B → M Unit × B

/-- Trajectory.py:18-52: the members of the base class, with the data of the subclass. -/
structure Base (B K : Type _) where
  maxSize : Nat
  maxTime : K
  lastDump : K
  data : B
  deriving DecidableEq, Repr

section
variable {B F K : Type _}

/-- Trajectory.py:63-86 `append`. `now` is read for the comparison and `now2` after the flush. -/
def append [Sub K] [LT K] [DecidableLT K] (w : Writer B F) (f : F) (now now2 : K) (t : Base B K) : M Unit × Base B K :=
  let d := w.store f t.data
  if t.maxSize < w.size d ∨ t.maxTime < now - t.lastDump then
    match w.flush d with
    | (.ok _, d2) => (.ok (), { t with data := d2, lastDump := now2 })
    | (.error e, d2) => (.error e, { t with data := d2 })
  else (.ok (), { t with data := d })

/-- `flush` called from outside. -/
def flush (w : Writer B F) (t : Base B K) : M Unit × Base B K :=
  ((w.flush t.data).1, { t with data := (w.flush t.data).2 })

/-- What is done with a trajectory. -/
inductive Op (F K : Type _)
  | append (f : F) (now now2 : K)
  | flush

/-- A sequence of calls; an exception ends it. -/
def exec [Sub K] [LT K] [DecidableLT K] (w : Writer B F) : List (Op F K) → Base B K → M Unit × Base B K
  | [], t => (.ok (), t)
  | op :: ops, t =>
    match (match op with | .append f a b => append w f a b t | .flush => flush w t) with
    | (.ok _, t1) => exec w ops t1
    | (.error e, t1) => (.error e, t1)

end

/-! ### Lattice trajectory -/

/-- What `KMCConfiguration.types()` returns (KMCConfiguration.py:218-232). -/
inductive PyTypes
  | plain (l : List String)
  | buckets (l : List (List String))
  deriving DecidableEq, Repr

def PyTypes.length : PyTypes → Nat
  | .plain l => l.length
  | .buckets l => l.length

/-- ConversionUtilities.py:217-239 the second loop of `toShortBucketsFormat` for one site: each name once, with
its number. The lists from the back end only have names, each of which counts one (196-215). -/
def short : List String → List String → List (Nat × String)
  | _, [] => []
  | taken, n :: l =>
    if n ∈ taken then short taken l
    else (1 + l.count n, n) :: short (taken ++ [n]) l

/-- The lines of the file. -/
inductive Line (K : Type _)
  | time (t : K)
  | step (k : Nat)
  | plain (l : List String)
  | short (l : List (List (Nat × String)))
  deriving DecidableEq, Repr

/-- LatticeTrajectory.py:51-53, and the file. -/
structure Lattice (K : Type _) where
  types : List PyTypes
  times : List K
  steps : List Nat
  file : List (Line K)
  deriving DecidableEq, Repr

/-- One frame: time, step, types. -/
abbrev Frame (K : Type _) := K × Nat × PyTypes

section
variable {K : Type _}

/-- LatticeTrajectory.py:147-202 one turn of the loop. `types[:-1][0]` raises for fewer than two sites, after
the first two lines have been written. -/
def writeFrame (f : Frame K) (file : List (Line K)) : M Unit × List (Line K) :=
  let file1 := file ++ [.time f.1, .step f.2.1]
  match f.2.2 with
  | .plain l => if l.length < 2 then (.error .indexError, file1) else (.ok (), file1 ++ [.plain l])
  | .buckets l => if l.length < 2 then (.error .indexError, file1) else (.ok (), file1 ++ [.short (l.map (short []))])

/-- LatticeTrajectory.py:147 the loop. -/
def writeFrames : List (Frame K) → List (Line K) → M Unit × List (Line K)
  | [], file => (.ok (), file)
  | f :: fs, file =>
    match writeFrame f file with
    | (.ok _, file1) => writeFrames fs file1
    | (.error e, file1) => (.error e, file1)

/-- LatticeTrajectory.py:133-205 `__writeToFile`: only the master writes. `zip` of the three buffers. -/
def writeToFile (master : Bool) (d : Lattice K) : M Unit × Lattice K :=
  if master then
    let r := writeFrames (d.times.zip (d.steps.zip d.types)) d.file
    (r.1, { d with file := r.2 })
  else (.ok (), d)

/-- LatticeTrajectory.py:118-131 `flush`. -/
def latticeFlush (master : Bool) (d : Lattice K) : M Unit × Lattice K :=
  if 0 < d.times.length ∧ 0 < d.steps.length ∧ 0 < d.types.length then
    match writeToFile master d with
    | (.ok _, d1) => (.ok (), { d1 with times := [], steps := [], types := [] })
    | (.error e, d1) => (.error e, d1)
  else (.ok (), d)

/-- LatticeTrajectory.py:95-131. `sizeof` is the size of a list of types, `sizeofList n` that of the buffer with
`n` entries. -/
def latticeWriter (master : Bool) (sizeof : PyTypes → Nat) (sizeofList : Nat → Nat) : Writer (Lattice K) (Frame K) where
  store := fun f d => { d with types := d.types ++ [f.2.2], times := d.times ++ [f.1], steps := d.steps ++ [f.2.1] }
  size := fun d =>
    match d.types with
    | [] => 0
    | t :: _ => sizeof t * d.types.length + sizeofList d.types.length
  flush := latticeFlush master

/-- LatticeTrajectory.py:24-56 and Trajectory.py:18-52: a new trajectory. The header is left out. -/
def newLattice [Zero K] (maxSize : Nat) (maxTime : K) : Base (Lattice K) K :=
  ⟨maxSize, maxTime, 0, ⟨[], [], [], []⟩⟩

end

/-! ### XYZ trajectory -/

/-- One frame: step, time, types and coordinates per atom id. -/
structure Atoms (K C : Type _) where
  time : K
  step : Nat
  types : List String
  coords : List C
  deriving DecidableEq, Repr

/-- What is written for one frame: step, number of atoms, time, and rows of type, coordinate and id. -/
structure Block (K C : Type _) where
  step : Nat
  count : Nat
  time : K
  rows : List (String × C × Nat)
  deriving DecidableEq, Repr

/-- XYZTrajectory.py:51-54, and the file. -/
structure Xyz (K C : Type _) where
  types : List (List String)
  coords : List (List C)
  times : List K
  steps : List Nat
  file : List (Block K C)
  deriving DecidableEq, Repr

section
variable {K C : Type _}

/-- XYZTrajectory.py:145-148 the rows of frame `i`. -/
def xyzRows (ts : List String) (cs : List C) : M (List (String × C × Nat)) :=
  mapMM (fun j => do
    let t ← rd ts j
    let c ← rd cs j
    return (t, c, j)) (List.range ts.length)

/-- XYZTrajectory.py:136-148 one turn of the loop of `flush`. -/
def xyzBlock (d : Xyz K C) (i : Nat) : M (Block K C) := do
  let step ← rd d.steps i
  let time ← rd d.times i
  let ts ← rd d.types i
  let cs ← rd d.coords i
  let rows ← xyzRows ts cs
  return ⟨step, ts.length, time, rows⟩

/-- XYZTrajectory.py:135-148 the loop. An exception inside a frame leaves part of the frame in the file, which is
not modelled. -/
def xyzBlocks (d : Xyz K C) : List Nat → List (Block K C) → M Unit × List (Block K C)
  | [], file => (.ok (), file)
  | i :: is, file =>
    match xyzBlock d i with
    | .ok b => xyzBlocks d is (file ++ [b])
    | .error e => (.error e, file)

/-- XYZTrajectory.py:126-157 `flush`. -/
def xyzFlush (master : Bool) (d : Xyz K C) : M Unit × Xyz K C :=
  if d.steps.length < 1 then (.ok (), d)
  else if master then
    match xyzBlocks d (List.range d.steps.length) d.file with
    | (.ok _, file) => (.ok (), ⟨[], [], [], [], file⟩)
    | (.error e, file) => (.error e, { d with file := file })
  else (.ok (), ⟨[], [], [], [], d.file⟩)

/-- XYZTrajectory.py:92-157. `size` is the sum of the object sizes. -/
def xyzWriter (master : Bool) (size : Xyz K C → Nat) : Writer (Xyz K C) (Atoms K C) where
  store := fun f d => { d with
    types := d.types ++ [f.types], coords := d.coords ++ [f.coords], times := d.times ++ [f.time], steps := d.steps ++ [f.step] }
  size := size
  flush := xyzFlush master

/-- XYZTrajectory.py:24-57: a new trajectory. The header is left out. -/
def newXyz [Zero K] (maxSize : Nat) (maxTime : K) : Base (Xyz K C) K :=
  ⟨maxSize, maxTime, 0, ⟨[], [], [], [], []⟩⟩

end

end Traj
end KMC
