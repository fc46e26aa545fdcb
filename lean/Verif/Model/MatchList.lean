import Verif.Model.Coordinate
import Verif.Model.TypeBucket

/-!
# Model of match list entries and match lists
(c++/src/matchlistentry.h, matchlistentry.cpp, matchlist.h, matchlist.cpp)
-/

namespace KMC

/-- c++/src/matchlistentry.h:57-82 MinimalMatchListEntry / ConfigBucketMatchListEntry.
The separate `x`, `y`, `z` members are one `Coord`. -/
structure CEntry (K : Type _) where
  index : Nat
  distance : K
  coord : Coord K
  matchTypes : Bucket
  deriving DecidableEq, Repr

/-- c++/src/matchlistentry.h:86-155 ProcessBucketMatchListEntry. The members `index` (always -1),
`move_cell_*` and `move_basis` are never read by the code and are left out. -/
structure PEntry (K : Type _) where
  hasMove : Bool
  distance : K
  coord : Coord K
  moveCoord : Coord K
  matchTypes : Bucket
  updateTypes : Bucket
  deriving DecidableEq, Repr

section
variable {K : Type _} [Field K] [LinearOrder K]

/-- c++/src/matchlistentry.cpp:18 epsi__. -/
def epsi : K := 1 / 100000

/-- The comparison shared by the three `operator<` of c++/src/matchlistentry.cpp:77-114, 119-156,
160-197, on a pair (distance, coordinate). -/
def ptLt (d1 : K) (c1 : Coord K) (d2 : K) (c2 : Coord K) : Bool :=
  if |d2 - d1| < epsi then
    if c1.x < c2.x then true
    else if c1.x > c2.x then false
    else if c1.y < c2.y then true
    else if c1.y > c2.y then false
    else decide (c1.z < c2.z)
  else decide (d1 < d2)

/-- c++/src/matchlistentry.cpp:77-114 operator<. -/
def CEntry.lt (a b : CEntry K) : Bool := ptLt a.distance a.coord b.distance b.coord

/-- c++/src/matchlistentry.cpp:160-197 operator<. -/
def PEntry.lt (a b : PEntry K) : Bool := ptLt a.distance a.coord b.distance b.coord

/-- c++/src/matchlistentry.cpp:23-45 and 50-72 samePoint, on pairs (distance, coordinate). -/
def ptSame (d1 : K) (c1 : Coord K) (d2 : K) (c2 : Coord K) : Bool :=
  if |d2 - d1| > epsi then false
  else if |c2.x - c1.x| > epsi then false
  else if |c2.y - c1.y| > epsi then false
  else if |c2.z - c1.z| > epsi then false
  else true

/-- c++/src/matchlistentry.cpp:50-72 samePoint(process entry, configuration entry). -/
def samePoint (p : PEntry K) (c : CEntry K) : Bool := ptSame p.distance p.coord c.distance c.coord

/-- c++/src/matchlistentry.h:124-141 match. -/
def PEntry.matches? (p : PEntry K) (c : CEntry K) : M Bool := do
  let t0 ← rd p.matchTypes 0
  if t0 = 1 then
    return true
  else
    let r ← Bucket.matches? p.matchTypes c.matchTypes
    if r = false then
      return false
    else
      return samePoint p c

/-- c++/src/matchlistentry.h:146-154 initWildcard. The members the code leaves uninitialised
(`has_move_coordinate`, `move_coordinate` is default constructed) are false and zero. Writing slot 0
of an empty bucket is out of bounds. -/
def initWildcard (c : CEntry K) : M (PEntry K) := do
  let mt ← wr (Bucket.zeros c.matchTypes.length) 0 1
  return { hasMove := false, distance := c.distance, coord := c.coord, moveCoord := 0,
           matchTypes := mt, updateTypes := Bucket.zeros c.matchTypes.length }

/-- c++/src/matchlist.h:82-90 the loop of whateverMatch (the caller has checked the lengths). -/
def matchPrefix : List (PEntry K) → List (CEntry K) → M Bool
  | [], _ => .ok true
  | _ :: _, [] => .error .outOfBounds
  | p :: ps, c :: cs => do
    let r ← p.matches? c
    if r = false then return false else matchPrefix ps cs

/-- c++/src/matchlist.h:71-91 whateverMatch. -/
def whateverMatch (ps : List (PEntry K)) (cs : List (CEntry K)) : M Bool :=
  if cs.length < ps.length then .ok false else matchPrefix ps cs

/-- `std::sort` on configuration entries. -/
def sortC (l : List (CEntry K)) : List (CEntry K) := l.insertionSort (fun a b => CEntry.lt b a = false)

/-- `std::sort` on process entries. -/
def sortP (l : List (PEntry K)) : List (PEntry K) := l.insertionSort (fun a b => PEntry.lt b a = false)

end

/-! ### Multiplicity -/

/-- Signed 32 bit `int` multiplication; overflow is undefined behaviour. -/
def mulInt32 (a b : Int) : M Int :=
  if -2147483648 ≤ a * b ∧ a * b ≤ 2147483647 then .ok (a * b) else .error .overflow

/-- `for (int j = start; j > stop; --j) acc *= j;` c++/src/matchlist.cpp:179-182 and 186-189.
`fuel` is the number of iterations, `start - stop`. -/
def mulDown (acc start : Int) : Nat → M Int
  | 0 => .ok acc
  | n + 1 => do
    let acc' ← mulInt32 acc start
    mulDown acc' (start - 1) n

/-- c++/src/matchlist.cpp:166-193 the factor contributed by one type with `n` present, `r` required.
-/
def multFactor (m n r : Int) : M Int :=
  let nMinusR := n - r
  let mx := max r nMinusR
  let mn := min r nMinusR
  if mn ≠ 0 then do
    let localN ← mulDown n (n - 1) (n - 1 - mx).toNat
    let localR ← mulDown mn (mn - 1) (mn - 1).toNat
    mulInt32 m (localN.tdiv localR)
  else .ok m

/-- c++/src/matchlist.cpp:161-195 the loop over element types 1..; the buckets are given from slot 1.
Reading past the end of `t2` is out of bounds. -/
def multTypes : Int → Bucket → Bucket → M Int
  | m, [], _ => .ok m
  | m, r :: rs, t2 =>
    if r > 0 then
      match t2 with
      | [] => .error .outOfBounds
      | n :: ns => do
        let m' ← multFactor m n r
        multTypes m' rs ns
    else multTypes m rs t2.tail

/-- c++/src/matchlist.cpp:152-197 the loop over sites. -/
def multLoop {K : Type _} : Int → List (PEntry K) → List (CEntry K) → M Int
  | m, [], _ => .ok m
  | _, _ :: _, [] => .error .outOfBounds
  | m, p :: ps, c :: cs => do
    let t0 ← rd p.matchTypes 0
    if t0 = 0 then
      let m' ← multTypes m p.matchTypes.tail c.matchTypes.tail
      multLoop m' ps cs
    else multLoop m ps cs

/-- c++/src/matchlist.cpp:142-201 multiplicity (the final cast to double is the identity here). -/
def multiplicity {K : Type _} (ps : List (PEntry K)) (cs : List (CEntry K)) : M Int := multLoop 1 ps cs

end KMC
