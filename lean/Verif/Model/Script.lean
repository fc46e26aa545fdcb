import Verif.Model.PyBucket
import Verif.Model.PyUnitCell
import Mathlib.Data.Int.Log
import Mathlib.Data.Nat.Digits.Defs

/-!
# Model of the scripts that objects are saved as
(the `_script` functions of python/src/KMCLib/CoreComponents and
python/src/KMCLib/Utilities/SaveAndReadUtilities.py)

The text is modelled for lists of names and for numbers. Above that a script is a list of assignments, and running it
evaluates them one after the other. Comments and layout are left out, and so is the import of the package, which the
scripts do not contain: the names of the classes are taken to be known.
-/

namespace KMC.Script

/-! ## Lists of names -/

/-- `"'" + t + "'"`. -/
def quoted (t : String) : List Char := '\'' :: t.toList ++ ['\'']

/-- KMCConfiguration.py:353-370, 375-394, KMCProcess.py:400-438: the names with commas; a line that has more than 50
characters is ended, and the next one is indented. Nothing is written for an empty list, not even the bracket at the end. -/
def namesLoop (indent : Nat) : List Char → List String → List Char
  | _, [] => []
  | line, [t] => line ++ quoted t ++ [']', '\n']
  | line, t :: ts =>
    let line' := line ++ quoted t ++ [',']
    if line'.length > 50 then line' ++ '\n' :: List.replicate indent ' ' ++ namesLoop indent [] ts
    else namesLoop indent line' ts

/-- The text of a list of names, after the name of the variable. -/
def namesText (indent : Nat) (ts : List String) : List Char := namesLoop indent ['['] ts

/-! ## Numbers -/

section
variable {K : Type _} [Field K] [LinearOrder K] [FloorRing K]

/-- The nearest integer, the even one of two. -/
def roundEven (s : K) : Nat :=
  let f := ⌊s⌋.toNat
  if s - f < 1 / 2 then f else if 1 / 2 < s - f then f + 1 else if f % 2 = 0 then f else f + 1

/-- `%15.6e`: the seven digits and the exponent for a number that is not negative. -/
def sci (a : K) : Nat × Int :=
  if a = 0 then (0, 0)
  else
    let e := Int.log 10 a
    let m := roundEven (a / 10 ^ (e - 6))
    if m = 10000000 then (1000000, e + 1) else (m, e)

/-- The number that `%15.6e` writes. -/
def saved (x : K) : K :=
  let r := sci |x|
  let v := (r.1 : K) * 10 ^ (r.2 - 6)
  if x < 0 then -v else v

/-- A number in decimal digits, with zeros up to a width. -/
def digitsText (width n : Nat) : List Char :=
  let d := (Nat.digits 10 n).reverse.map Nat.digitChar
  List.replicate (width - d.length) '0' ++ d

/-- The text of the digits and the exponent. -/
def sciText (m : Nat) (e : Int) : List Char :=
  (digitsText 7 m).take 1 ++ '.' :: (digitsText 7 m).drop 1 ++ 'e' :: (if e < 0 then '-' else '+') :: digitsText 2 e.natAbs

/-- `%15.6e`, right aligned. -/
def numberText (x : K) : List Char :=
  let t := (if x < 0 then ['-'] else []) ++ sciText (sci |x|).1 (sci |x|).2
  List.replicate (15 - t.length) ' ' ++ t

/-- The three numbers of a coordinate. -/
def savedCoord (c : Coord K) : Coord K := ⟨saved c.x, saved c.y, saved c.z⟩

end

/-! ## Objects -/

/-- The types stored on a configuration, KMCConfiguration.py:121-122. -/
inductive Types
  | names (l : List String)
  | buckets (l : List (List (List Py)))

/-- What is stored on a configuration and its lattice, KMCConfiguration.py:55-122, KMCLattice.py:22-54. -/
structure PyConf (K : Type _) where
  cell : PyUnitCell K
  repA : Nat
  repB : Nat
  repC : Nat
  periodic : List Bool
  types : Types
  possible : List (String × Nat)

/-- What is stored on the interactions, KMCInteractions.py:44-66. -/
structure PyInter (K : Type _) where
  processes : List (PyProcess K)
  implicitWildcards : Bool
  calculator : Option (Calculator K)

/-- Values of variables. -/
inductive Val (K : Type _)
  | names (l : List String)
  | rows (l : List (List K))
  | points (l : List (Coord K))
  | moves (l : Option (List (Int × Coord K)))
  | ints (l : List Int)
  | number (x : K)
  | cell (u : PyUnitCell K)
  | lattice (u : PyUnitCell K) (P : PyLattice K)
  | configuration (c : PyConf K)
  | process (p : PyProcess K)
  | processes (l : List (PyProcess K))
  | interactions (i : PyInter K)
  | model (c : PyConf K) (i : PyInter K)

/-- Names of variables; `process i` is `process_%i`. -/
inductive Name
  | var (s : String)
  | process (i : Nat)
  deriving DecidableEq

/-- Right hand sides. -/
inductive Expr (K : Type _)
  | value (v : Val K)
  | unitCell (cellVectors basisPoints : Name)
  | lattice (unitCell : Name) (repetitions : List Int) (periodic : List Bool)
  | configuration (lattice types possibleTypes : Name)
  | process (coordinates before after moveVectors basisSites rateConstant : Name)
  | list (names : List Name)
  | interactions (processes : Name) (implicitWildcards : Bool)
  | model (configuration interactions : Name)

/-- A dict of variables. -/
abbrev Dict (K : Type _) := List (Name × Val K)

/-- `d[n]`; a name that is not there is an exception. -/
def get {K : Type _} (d : Dict K) (n : Name) : M (Val K) :=
  match d.find? (fun e => decide (e.1 = n)) with
  | some e => .ok e.2
  | none => .error .exception

/-- `d[n] = v`: a name that is there keeps its place. -/
def put {K : Type _} (d : Dict K) (n : Name) (v : Val K) : Dict K :=
  if d.any (fun e => decide (e.1 = n)) then d.map (fun e => if e.1 = n then (e.1, v) else e) else d ++ [(n, v)]

section
variable {K : Type _} [Field K] [LinearOrder K] [FloorRing K]

/-! ## Writing -/

/-- A coordinate as a list of numbers. -/
def row (c : Coord K) : List K := [saved c.x, saved c.y, saved c.z]

/-- KMCUnitCell.py:71-122 _script. -/
def cellScript (u : PyUnitCell K) : List (Name × Expr K) :=
  [(.var "cell_vectors", .value (.rows [row u.a, row u.b, row u.c])),
   (.var "basis_points", .value (.rows (u.basis.map row))),
   (.var "unit_cell", .unitCell (.var "cell_vectors") (.var "basis_points"))]

/-- KMCLattice.py:210-241 _script. -/
def latticeScript (c : PyConf K) : List (Name × Expr K) :=
  cellScript c.cell ++ [(.var "lattice", .lattice (.var "unit_cell") [c.repA, c.repB, c.repC] c.periodic)]

/-- KMCConfiguration.py:336-411 _script. The types are those stored, which may be older than those of the back end. With
buckets the concatenation of a quote and a list raises. The possible types are the keys of the dict without the wildcard. -/
def configurationScript (c : PyConf K) : M (List (Name × Expr K)) :=
  match c.types with
  | .buckets _ => .error .exception
  | .names l => .ok (latticeScript c ++
    [(.var "types", .value (.names l)),
     (.var "possible_types", .value (.names ((c.possible.map Prod.fst).filter (fun t => decide (t ≠ "*"))))),
     (.var "configuration", .configuration (.var "lattice") (.var "types") (.var "possible_types"))])

/-- KMCProcess.py:360-486 _script. Bucket processes do not have this function. -/
def processScript (i : Nat) : PyProcess K → M (List (Name × Expr K))
  | .bucket _ => .error .exception
  | .plain p => .ok
    [(.var "coordinates", .value (.points (p.coords.map savedCoord))),
     (.var "elements_before", .value (.names p.before)),
     (.var "elements_after", .value (.names p.after)),
     (.var "move_vectors", .value (.moves (if p.moves.isEmpty then none
       else some (p.moves.map fun m => ((m.1 : Int), savedCoord m.2))))),
     (.var "basis_sites", .value (.ints (p.basisSites.map fun b : Nat => (b : Int)))),
     (.var "rate_constant", .value (.number (saved p.rate))),
     (.process i, .process (.var "coordinates") (.var "elements_before") (.var "elements_after") (.var "move_vectors")
       (.var "basis_sites") (.var "rate_constant"))]

/-- KMCInteractions.py:275-326 _script. The calculator is not mentioned. -/
def interactionsScript (i : PyInter K) : M (List (Name × Expr K)) := do
  let ps ← mapMM (fun x : PyProcess K × Nat => processScript x.2 x.1) i.processes.zipIdx
  return ps.flatten ++
    [(.var "processes", .list ((List.range i.processes.length).map Name.process)),
     (.var "interactions", .interactions (.var "processes") i.implicitWildcards)]

/-- KMCLatticeModel.py:288-316 _script. -/
def modelScript (c : PyConf K) (i : PyInter K) : M (List (Name × Expr K)) := do
  let a ← configurationScript c
  let b ← interactionsScript i
  return a ++ b ++ [(.var "model", .model (.var "configuration") (.var "interactions"))]

/-! ## Reading -/

/-- The constructor KMCConfiguration.py:30-73 on a list of names. -/
def makeConfiguration (u : PyUnitCell K) (P : PyLattice K) (types possible : List String) : M (PyConf K) := do
  let r ← PyConfig.elements P (types.map Py.str) none (some possible)
  return ⟨u, P.repA, P.repB, P.repC, [P.perA, P.perB, P.perC], .names types, r.2⟩

/-- The process of a variable. -/
def asProcess : Val K → M (PyProcess K)
  | .process p => .ok p
  | _ => .error .exception

/-- The evaluation of a right hand side. -/
def eval (d : Dict K) : Expr K → M (Val K)
  | .value v => .ok v
  | .unitCell a b => do
    match ← get d a, ← get d b with
    | .rows a, .rows b =>
      let u ← PyUnitCell.make a b
      return .cell u
    | _, _ => .error .exception
  | .lattice u r p => do
    match ← get d u with
    | .cell u =>
      let P ← PyLattice.make u (some r) (some p)
      return .lattice u P
    | _ => .error .exception
  | .configuration l t p => do
    match ← get d l, ← get d t, ← get d p with
    | .lattice u P, .names t, .names p =>
      let c ← makeConfiguration u P t p
      return .configuration c
    | _, _, _ => .error .exception
  | .process c b a m s r => do
    match ← get d c, ← get d b, ← get d a, ← get d m, ← get d s, ← get d r with
    | .points c, .names b, .names a, .moves m, .ints s, .number r =>
      let p ← PyProc.make c b a m s r
      return .process (.plain p)
    | _, _, _, _, _, _ => .error .exception
  | .list ns => do
    let vs ← mapMM (get d) ns
    let ps ← mapMM asProcess vs
    return .processes ps
  | .interactions p w => do
    match ← get d p with
    | .processes ps => if ps.isEmpty then .error .exception else return .interactions ⟨ps, w, none⟩
    | _ => .error .exception
  | .model c i => do
    match ← get d c, ← get d i with
    | .configuration c, .interactions i => return .model c i
    | _, _ => .error .exception

/-- One assignment. -/
def assign (d : Dict K) (s : Name × Expr K) : M (Dict K) := do
  let v ← eval d s.2
  return put d s.1 v

/-- SaveAndReadUtilities.py:68-71: running a script in an empty dict. -/
def exec (script : List (Name × Expr K)) : M (Dict K) := loopM assign script []

/-- SaveAndReadUtilities.py:54-82 getScriptComponent: the first value of the class asked for, if there is one. -/
def component (isKind : Val K → Bool) (script : List (Name × Expr K)) : M (Option (Val K)) := do
  let d ← exec script
  return (d.map Prod.snd).find? isKind

/-! ## The stored types -/

/-- The types stored on a configuration object and the elements in its back end, once that has been made. -/
structure Stored where
  types : List String
  backend : Option (List (List String))
  deriving DecidableEq, Repr

/-- What happens to a configuration object without buckets. -/
inductive Use
  /-- `_backend()` -/
  | backend
  /-- `types()` -/
  | types
  /-- the simulation changes the elements in the back end -/
  | step (elements : List (List String))

/-- KMCConfiguration.py:299-320 _backend with ConversionUtilities.py:59-73: the back end is made of the stored types once. -/
def Stored.elements (s : Stored) : List (List String) :=
  match s.backend with
  | some e => e
  | none => s.types.map (fun t => [t])

/-- KMCConfiguration.py:228: `e[0]`. -/
def firstName (e : List String) : M String :=
  match e with
  | t :: _ => .ok t
  | [] => .error .indexError

/-- KMCConfiguration.py:218-231 types, 299-320 _backend. -/
def Stored.use (s : Stored) : Use → M Stored
  | .backend => .ok { s with backend := some s.elements }
  | .types => do
    let l ← mapMM firstName s.elements
    return { types := l, backend := some s.elements }
  | .step e => .ok { s with backend := some e }

/-- `isinstance(v, KMCLatticeModel)`. -/
def isModel : Val K → Bool
  | .model _ _ => true
  | _ => false

end
end KMC.Script
