import Verif.Model.MatchList
import Verif.Model.LatticeMap

/-!
# Model of `Configuration` (c++/src/configuration.h, c++/src/configuration.cpp)
-/

namespace KMC

/-- c++/src/configuration.h:176-225, the data members. `update_info_` is only used while building
processes and is passed there as an argument. -/
structure Config (K : Type _) where
  coords : List (Coord K)
  elements : List (List String)
  types : List Bucket
  typeNames : List String
  possibleTypes : List (String × Nat)
  atomId : List Nat
  atomIdElements : List String
  atomIdCoords : List (Coord K)
  matchLists : List (List (CEntry K))
  movedIds : List Nat
  moveVectors : List (Coord K)
  nMoved : Nat
  latestProcess : Nat
  latestSite : Nat
  deriving DecidableEq, Repr

/-- `std::vector::resize`. -/
def resize {α : Type _} (xs : List α) (n : Nat) (d : α) : List α :=
  xs.take n ++ List.replicate (n - xs.length) d

namespace Config

/-- `possible_types.find(name)->second`; dereferencing `end()` is out of bounds. -/
def typeNumber (pt : List (String × Nat)) (name : String) : M Nat :=
  match pt.lookup name with
  | some n => .ok n
  | none => .error .outOfBounds

/-- c++/src/configuration.cpp:86-97 the bucket of a list of element names. -/
def bucketOf (pt : List (String × Nat)) (size : Nat) (els : List String) : M Bucket :=
  loopM (fun (tb : Bucket) e => do
    let t ← typeNumber pt e
    let v ← rd tb t
    wr tb t (v + 1)) els (Bucket.zeros size)

/-- c++/src/configuration.cpp:62-81 the list of type names. -/
def typeNamesOf (pt : List (String × Nat)) : M (List String) :=
  let maxType := pt.foldl (fun m e => if e.2 > m then e.2 else m) 0
  loopM (fun (names : List String) e => wr names e.2 e.1) pt (List.replicate (maxType + 1) "")

variable {K : Type _} [Field K] [LinearOrder K]

/-- c++/src/configuration.cpp:29-102 the constructor. -/
def mk' (coords : List (Coord K)) (elements : List (List String)) (pt : List (String × Nat)) :
    M (Config K) := do
  let first ← mapMM (fun i => do let e ← rd elements i; rd e 0) (List.range coords.length)
  let aie ← loopM (fun (a : List String) (p : Nat × String) => wr a p.1 p.2)
    ((List.range coords.length).zip first) (List.replicate elements.length "")
  let names ← typeNamesOf pt
  let types ← mapMM (bucketOf pt names.length) elements
  return { coords := coords, elements := elements, types := types, typeNames := names,
           possibleTypes := pt, atomId := List.range coords.length, atomIdElements := aie,
           atomIdCoords := coords, matchLists := List.replicate elements.length [],
           movedIds := [], moveVectors := [], nMoved := 0, latestProcess := 0, latestSite := 0 }

/-- c++/src/configuration.cpp:178-261 the relative coordinate, wrapped; the three branches. -/
def relCoord (L : LatticeMap) (c center : Coord K) : Coord K :=
  let d := c - center
  if L.perA ∧ L.perB ∧ L.perC then
    ⟨LatticeMap.wrapComp L.repA d.x, LatticeMap.wrapComp L.repB d.y, LatticeMap.wrapComp L.repC d.z⟩
  else if L.perA ∧ L.perB then
    ⟨LatticeMap.wrapComp L.repA d.x, LatticeMap.wrapComp L.repB d.y, d.z⟩
  else L.wrap d

/-- One entry of the match list, c++/src/configuration.cpp:183-202. -/
def cEntry (dist : Coord K → K) (L : LatticeMap) (cfg : Config K) (center : Coord K) (i : Nat) :
    M (CEntry K) := do
  let ci ← rd cfg.coords i
  let t ← rd cfg.types i
  let c := relCoord L ci center
  return { index := i, distance := dist c, coord := c, matchTypes := t }

/-- c++/src/configuration.cpp:155-266 configMatchList(origin, indices, lattice_map). -/
def configMatchList (dist : Coord K → K) (L : LatticeMap) (cfg : Config K) (origin : Nat)
    (indices : List Nat) : M (List (CEntry K)) := do
  let center ← rd cfg.coords origin
  let l ← mapMM (cEntry dist L cfg center) indices
  return sortC l

/-- c++/src/configuration.cpp:107-136 initMatchLists. -/
def initMatchLists (dist : Coord K → K) (L : LatticeMap) (cfg : Config K) (range : Nat) :
    M (Config K) := do
  let lists ← mapMM (fun i => configMatchList dist L cfg i (L.neighbourIndices i range))
    (List.range cfg.types.length)
  let mls ← loopM (fun (m : List (List (CEntry K))) (p : Nat × List (CEntry K)) => wr m p.1 p.2)
    ((List.range cfg.types.length).zip lists) cfg.matchLists
  let maxSize := lists.foldl (fun m l => if l.length > m then l.length else m) 0
  return { cfg with matchLists := mls, movedIds := resize cfg.movedIds maxSize 0,
                    moveVectors := resize cfg.moveVectors maxSize 0 }

/-- c++/src/configuration.cpp:141-150 updateMatchList. -/
def updateMatchList (cfg : Config K) (index : Nat) : M (Config K) := do
  let ml ← rd cfg.matchLists index
  let ml' ← mapMM (fun (e : CEntry K) => do
    let t ← rd cfg.types e.index
    return { e with matchTypes := t }) ml
  let mls ← wr cfg.matchLists index ml'
  return { cfg with matchLists := mls }

/-- c++/src/configuration.cpp:322-325: `types_[index][i] += update_types[i]` for the slots of the
site's bucket. Reading past the end of the update is out of bounds. -/
def addUpdate : Bucket → Bucket → M Bucket
  | [], _ => .ok []
  | _ :: _, [] => .error .outOfBounds
  | t :: ts, u :: us => do
    let r ← addUpdate ts us
    return (t + u) :: r

/-- c++/src/configuration.cpp:333-340: the element names of a bucket, in type order. A type number
without a name is out of bounds (only noticed when its count is positive). -/
def elementsOf : List String → Bucket → M (List String)
  | _, [] => .ok []
  | [], c :: cs => if c > 0 then .error .outOfBounds else elementsOf [] cs
  | n :: ns, c :: cs => do
    let r ← elementsOf ns cs
    return List.replicate c.toNat n ++ r

/-- c++/src/configuration.cpp:305-310 sum of absolute values. -/
def absSum (u : Bucket) : Int := u.foldl (fun s v => s + |v|) 0

/-- c++/src/configuration.cpp:296-366 one turn of the loop of performBucketProcess. The state is the
configuration and the process's affected indices. The three output iterators advance together with
n_moved_. -/
def performEntry (st : Config K × List Nat) (p : PEntry K) (c : CEntry K) :
    M (Config K × List Nat) := do
  let cfg := st.1
  let affected := st.2
  if absSum p.updateTypes > 0 then
    let u0 ← rd p.updateTypes 0
    if ¬ (u0 > 0) then
      let id ← rd cfg.atomId c.index
      let ac ← rd cfg.atomIdCoords id
      let atomIdCoords ← wr cfg.atomIdCoords id (ac + p.moveCoord)
      let t ← rd cfg.types c.index
      let t' ← addUpdate t p.updateTypes
      let types ← wr cfg.types c.index t'
      let els ← elementsOf cfg.typeNames t'
      let elements ← wr cfg.elements c.index els
      let atomIdElements ←
        if p.hasMove = false then do
          let e0 ← rd els 0
          wr cfg.atomIdElements id e0
        else pure cfg.atomIdElements
      let affected' ← wr affected cfg.nMoved c.index
      let movedIds ← wr cfg.movedIds cfg.nMoved id
      let moveVectors ← wr cfg.moveVectors cfg.nMoved p.moveCoord
      return ({ cfg with atomIdCoords := atomIdCoords, types := types, elements := elements,
                         atomIdElements := atomIdElements, movedIds := movedIds,
                         moveVectors := moveVectors, nMoved := cfg.nMoved + 1 }, affected')
    else return st
  else return st

/-- c++/src/configuration.cpp:296 the loop itself. -/
def performLoop : List (PEntry K) → List (CEntry K) → Config K × List Nat → M (Config K × List Nat)
  | [], _, st => .ok st
  | _ :: _, [], _ => .error .outOfBounds
  | p :: ps, c :: cs, st => do
    let st' ← performEntry st p c
    performLoop ps cs st'

/-- c++/src/configuration.cpp:375-385 collect the id updates. -/
def idUpdate (cfg : Config K) (sml : List (CEntry K)) (mv : Nat × Nat) : M (Nat × Nat) := do
  let f ← rd sml mv.1
  let t ← rd sml mv.2
  let id ← rd cfg.atomId f.index
  return (id, t.index)

/-- c++/src/configuration.cpp:388-402 apply one id update. -/
def applyIdUpdate (cfg : Config K) (u : Nat × Nat) : M (Config K) := do
  let atomId ← wr cfg.atomId u.2 u.1
  let els ← rd cfg.elements u.2
  let e0 ← rd els 0
  let aie ← wr cfg.atomIdElements u.1 e0
  return { cfg with atomId := atomId, atomIdElements := aie }

/-- c++/src/configuration.cpp:271-403 performBucketProcess. The process is given by its number, match
list, id moves and affected indices; the result has the new affected indices. -/
def perform (cfg : Config K) (number : Nat) (pml : List (PEntry K)) (idMoves : List (Nat × Nat))
    (affected : List Nat) (site : Nat) : M (Config K × List Nat) := do
  let sml ← rd cfg.matchLists site
  let cfg1 : Config K := { cfg with latestProcess := number, latestSite := site, nMoved := 0 }
  let st ← performLoop pml sml (cfg1, affected)
  let ups ← mapMM (idUpdate st.1 sml) idMoves
  let cfg2 ← loopM applyIdUpdate ups st.1
  return (cfg2, st.2)

/-- c++/src/configuration.cpp:408-424 particlesPerType. -/
def particlesPerType (cfg : Config K) : M (List Int) :=
  mapMM (fun j => loopM (fun (s : Int) (t : Bucket) => do let v ← rd t j; return s + v) cfg.types 0)
    (List.range cfg.possibleTypes.length)

/-- c++/src/configuration.h:235-241 movedAtomIDs. -/
def movedAtomIDs (cfg : Config K) : List Nat := resize cfg.movedIds cfg.nMoved 0

/-- c++/src/configuration.h:246-252 recentMoveVectors. -/
def recentMoveVectors (cfg : Config K) : List (Coord K) := resize cfg.moveVectors cfg.nMoved 0

end Config
end KMC
