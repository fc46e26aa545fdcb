import Verif.Model.PyLattice
import Verif.Model.Configuration

/-!
# Model of the type input of the front end
(python/src/KMCLib/Utilities/CheckUtilities.py, ConversionUtilities.py and
python/src/KMCLib/CoreComponents/KMCConfiguration.py)
-/

namespace KMC

/-- The Python values that can occur in type input. `other` stands for all values that are neither
strings, integers, tuples nor lists. (Python's `bool` is a subclass of `int` and counts as one.) -/
inductive Py
  | str (s : String)
  | int (n : Int)
  | tup (l : List Py)
  | lst (l : List Py)
  | other
  deriving Repr

namespace Py

mutual
/-- `a == b` on Python values. (Values outside the model are taken to be different.) -/
def eq : Py → Py → Bool
  | str a, str b => decide (a = b)
  | int a, int b => decide (a = b)
  | tup a, tup b => eqList a b
  | lst a, lst b => eqList a b
  | _, _ => false

/-- The comparison of the items of two tuples or lists. -/
def eqList : List Py → List Py → Bool
  | [], [] => true
  | a :: as, b :: bs => eq a b && eqList as bs
  | _, _ => false
end

/-- `isinstance(t, str)`. -/
def isStr : Py → Bool
  | str _ => true
  | _ => false

/-- `isinstance(t, int)`. -/
def isInt : Py → Bool
  | int _ => true
  | _ => false

/-- `isinstance(t, tuple)`. -/
def isTup : Py → Bool
  | tup _ => true
  | _ => false

/-- `l[i]` on a Python tuple, for a literal `i ≥ 0`. -/
def item (l : List Py) (i : Nat) : M Py :=
  match l[i]? with
  | some v => .ok v
  | none => .error .indexError

/-- `a + b`; anything but integers, strings, tuples and lists of one kind is a TypeError. -/
def plus : Py → Py → M Py
  | int a, int b => .ok (.int (a + b))
  | str a, str b => .ok (.str (a ++ b))
  | tup a, tup b => .ok (.tup (a ++ b))
  | lst a, lst b => .ok (.lst (a ++ b))
  | _, _ => .error .exception

end Py

namespace BucketInput
open Py

/-- CheckUtilities.py:304-312 one element of a list entry. The test at line 308 reads
`not len(tt) == 2 and isinstance(tt[0], int) and isinstance(tt[1], str)`, where `not` binds to the
first comparison only, and `and` stops at the first false operand. -/
def normaliseElement : Py → M (List Py)
  | .str s => .ok [.int 1, .str s]
  | .tup l =>
    if l.length ≠ 2 then do
      let a ← item l 0
      if a.isInt then do
        let b ← item l 1
        if b.isStr then .error .exception else .ok l
      else .ok l
    else .ok l
  | _ => .error .exception

/-- CheckUtilities.py:327-336 the inner loop: add up the later entries of the same type. State:
(first, skip_list); `i` is the position of `first`, the list has the values of `j`. -/
def addSame (normalised : List (List Py)) (i : Nat) (st : List Py × List Nat) (j : Nat) :
    M (List Py × List Nat) := do
  let second ← match normalised[i + j + 1]? with
    | some s => .ok s
    | none => .error .indexError
  let a ← item st.1 1
  let b ← item second 1
  if a.eq b then
    let x ← item st.1 0
    let y ← item second 0
    let s ← x.plus y
    return ([s, a], st.2 ++ [i + j + 1])
  else return st

/-- CheckUtilities.py:323-339 one turn of the outer loop. State: (final_type, skip_list). -/
def collectStep (normalised : List (List Py)) (st : List (List Py) × List Nat) (e : List Py × Nat) :
    M (List (List Py) × List Nat) :=
  if e.2 ∈ st.2 then .ok st
  else do
    let r ← loopM (addSame normalised e.2) (List.range (normalised.length - e.2 - 1)) (e.1, st.2)
    return (st.1 ++ [r.1], r.2)

/-- CheckUtilities.py:288-351 checkAndNormaliseBucketEntry. Tuples are lists of values. -/
def normalise : Py → M (List (List Py))
  | .lst l => do
    let normalised ← mapMM normaliseElement l
    let r ← loopM (collectStep normalised) normalised.zipIdx ([], [])
    return r.1
  | .tup l => do
    if l.length ≠ 2 then .error .exception
    else do
      let a ← item l 0
      let b ← item l 1
      if a.isInt = false ∨ b.isStr = false then .error .exception else return [l]
  | .str s => .ok [[.int 1, .str s]]
  | _ => .error .exception

/-- ConversionUtilities.py:90-94 the names pushed for one pair `s`: `range(s[0])` needs an integer
(negative gives nothing), `push_back` needs a string. -/
def expandPair (s : List Py) : M (List String) := do
  let n ← item s 0
  match n with
  | .int n =>
    if n ≤ 0 then return []
    else do
      let v ← item s 1
      match v with
      | .str v => return List.replicate n.toNat v
      | _ => .error .exception
  | _ => .error .exception

/-- ConversionUtilities.py:76-98 bucketListToStdVectorStdVectorString. -/
def expand (l : List (List (List Py))) : M (List (List String)) :=
  mapMM (fun ss => do
    let parts ← mapMM expandPair ss
    return parts.flatten) l

end BucketInput

namespace Short

/-- ConversionUtilities.py:198-213 the pairs of one site. -/
def pairsOf : Py → List Py
  | .str s => [.tup [.int 1, .str s]]
  | .lst l => l.filterMap fun tt =>
      match tt with
      | .str s => some (.tup [.int 1, .str s])
      | .tup t => some (.tup t)
      | _ => none
  | .tup t => [.tup t]
  | _ => []

end Short

/-- ConversionUtilities.py:219-242 the second half of toShortBucketsFormat for one site, on pairs of
numbers and names: collect the numbers of the same type. `taken` are the names seen, `t` the rest of
the list. -/
def shortCollect : List String → List (Int × String) → List (Int × String)
  | _, [] => []
  | taken, e :: t =>
    if e.2 ∈ taken then shortCollect taken t
    else (e.1 + ((t.filter (fun x => decide (x.2 = e.2))).map (·.1)).sum, e.2) ::
      shortCollect (taken ++ [e.2]) t

namespace PyConfig
open Py

/-- The three formats of KMCConfiguration.py:124-145. -/
inductive Format
  | short
  | long
  | buckets
  deriving DecidableEq, Repr

/-- `isinstance(tt, (int,int,int,int,str)[i])`; the tuple of classes has five entries. -/
def longSlot (i : Nat) (v : Py) : M Bool :=
  if i < 4 then .ok v.isInt else if i = 4 then .ok v.isStr else .error .indexError

/-- `all([isinstance(tt, (int,int,int,int,str)[i]) for i,tt in enumerate(t)])`: the whole list is built
before `all` looks at it. -/
def longTuple (t : List Py) : M Bool := do
  let l ← mapMM (fun e : Py × Nat => longSlot e.2 e.1) t.zipIdx
  return l.all id

/-- KMCConfiguration.py:124-145 __detectTypesFormat (the input is a list). -/
def detect (types : List Py) : M Format :=
  if types.all isStr then .ok .short
  else if types.all isTup then
    match types with
    | .tup t :: _ => do
      let b ← longTuple t
      return if b then .long else .buckets
    | _ => .error .indexError
  else .ok .buckets

/-- KMCConfiguration.py:147-157 __checkAndSetShortTypes with CheckUtilities.py checkTypes. -/
def shortTypes (n : Nat) (types : List Py) (default : Option Py) : M (List String) :=
  if default.isSome then .error .exception
  else do
    let l ← mapMM (fun t => match t with
      | .str s => .ok s
      | _ => .error .exception) types
    if l.length ≠ n then .error .exception else return l

variable {K : Type _} [Field K]

/-- `list[index] = s` for an index that is not negative. -/
def setItem (cur : List String) (index : Nat) (s : String) : M (List String) :=
  if index < cur.length then .ok (cur.set index s) else .error .indexError

/-- KMCConfiguration.py:175-198 one positioned type. -/
def longEntry (P : PyLattice K) (cur : List String) (t : Py) : M (List String) :=
  match t with
  | .tup l =>
    if l.length ≠ 5 then .error .exception
    else do
      let b ← longTuple l
      if b = false then .error .exception
      else
        match l with
        | [.int i, .int j, .int k, .int b, .str s] =>
          if i < 0 ∨ i ≥ P.repA then .error .exception
          else if j < 0 ∨ j ≥ P.repB then .error .exception
          else if k < 0 ∨ k ≥ P.repC then .error .exception
          else if b < 0 ∨ b ≥ P.basis.length then .error .exception
          else setItem cur (P.globalIndex i.toNat j.toNat k.toNat b.toNat) s
        | _ => .error .exception
  | _ => .error .exception

/-- KMCConfiguration.py:159-201 __checkAndSetLongTypes. -/
def longTypes (P : PyLattice K) (types : List Py) (default : Option Py) : M (List String) :=
  match default with
  | some (.str d) => loopM (longEntry P) types (List.replicate P.sites.length d)
  | _ => .error .exception

/-- KMCConfiguration.py:203-216 __checkAndSetBucketsTypes. -/
def bucketTypes (types : List Py) (default : Option Py) : M (List (List (List Py))) :=
  if default.isSome then .error .exception else mapMM BucketInput.normalise types

/-- `sorted(set(names))`. -/
def sortedSet (names : List String) : List String := names.dedup.insertionSort (· ≤ ·)

/-- `dict(zip(names, range(len(names))))`: a name given twice keeps its first place in the dict and
its last number. -/
def dictOf (names : List String) : List (String × Nat) :=
  names.zipIdx.foldl (fun d e =>
    if d.any (fun x => decide (x.1 = e.1)) then d.map (fun x => if x.1 = e.1 then (x.1, e.2) else x)
    else d ++ [e]) []

/-- KMCConfiguration.py:100-112 the list of possible types, from the types present and the optional
list given. -/
def possibleNames (present : List String) (possible : Option (List String)) : M (List String) :=
  match possible with
  | none => .ok (sortedSet present)
  | some l => if present.all (fun t => decide (t ∈ l)) then .ok l else .error .exception

/-- KMCConfiguration.py:100-119 the possible types as a dict. -/
def possibleTypes (present : List String) (possible : Option (List String)) : M (List (String × Nat)) := do
  let names ← possibleNames present possible
  if "*" ∈ names then .error .exception else return dictOf ("*" :: names)

/-- KMCConfiguration.py:93-96 the name in a pair: `t[1]`. -/
def nameOf (e : List Py) : M String := do
  let v ← item e 1
  match v with
  | .str s => .ok s
  | _ => .error .exception

/-- The elements handed to the back end and the numbering of the types: KMCConfiguration.py:75-122
__checkAndSetTypes followed by the conversion in 300-320 _backend. For buckets the names present are
`t[1]` for all pairs (93-96); a name that is not a string fails at once here, in the code when the
dict is converted. -/
def elements (P : PyLattice K) (types : List Py) (default : Option Py) (possible : Option (List String)) :
    M (List (List String) × List (String × Nat)) := do
  let f ← detect types
  match f with
  | .short =>
    let l ← shortTypes P.sites.length types default
    let pt ← possibleTypes l possible
    return (l.map (fun s => [s]), pt)
  | .long =>
    let l ← longTypes P types default
    let pt ← possibleTypes l possible
    return (l.map (fun s => [s]), pt)
  | .buckets =>
    let l ← bucketTypes types default
    let names ← mapMM nameOf l.flatten
    let pt ← possibleTypes names possible
    let ex ← BucketInput.expand l
    return (ex, pt)

end PyConfig
end KMC
