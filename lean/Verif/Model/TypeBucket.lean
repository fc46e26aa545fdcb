import Verif.Model.Basic

/-!
# Model of `TypeBucket` (c++/src/typebucket.h)

A bucket is the list of its slots (`size_` is the length).
-/

namespace KMC

/-- c++/src/typebucket.h:26-133 class TypeBucket. -/
abbrev Bucket := List Int

namespace Bucket

/-- c++/src/typebucket.cpp TypeBucket(const int size): all slots zero. -/
def zeros (n : Nat) : Bucket := List.replicate n 0

/-- c++/src/typebucket.h:150-156 the comparison loop of `identical`. -/
def identicalLoop : Bucket → Bucket → Bool
  | a :: as, b :: bs => if a ≠ b then false else identicalLoop as bs
  | _, _ => true

/-- c++/src/typebucket.h:143-160 identical. -/
def identical (a b : Bucket) : Bool :=
  if a.length ≠ b.length then false else identicalLoop a b

/-- c++/src/typebucket.h:175-187 the loop of `operator==(int)`; `j` is the loop counter. -/
def isSingleLoop (i : Nat) : Nat → Bucket → Bool
  | _, [] => true
  | j, a :: as =>
    if i ≠ j ∧ a ≠ 0 then false
    else if i = j ∧ a ≠ 1 then false
    else isSingleLoop i (j + 1) as

/-- c++/src/typebucket.h:165-188 operator==(const int i). -/
def isSingle (a : Bucket) (i : Nat) : M Bool :=
  if a.length ≤ i then .error .exception else .ok (isSingleLoop i 0 a)

/-- c++/src/typebucket.h:200-212 the loop of `greaterOrEqual`. -/
def geLoop : Bucket → Bucket → Bool
  | a :: as, b :: bs =>
    if a < b then false else if a > b then true else geLoop as bs
  | _, _ => true

/-- c++/src/typebucket.h:193-213 greaterOrEqual. -/
def greaterOrEqual (a b : Bucket) : M Bool :=
  if a.length ≠ b.length then .error .exception else .ok (geLoop a b)

/-- c++/src/typebucket.h:260-268 lessThan. -/
def lessThan (a b : Bucket) : M Bool :=
  if a.length ≠ b.length then .error .exception
  else match greaterOrEqual a b with
    | .ok r => .ok (!r)
    | .error e => .error e

/-- c++/src/typebucket.h:225-233 the loop of `match`. -/
def matchLoop : Bucket → Bucket → Bool
  | a :: as, b :: bs => if a > b then false else matchLoop as bs
  | _, _ => true

/-- c++/src/typebucket.h:218-235 match. -/
def matches? (a b : Bucket) : M Bool :=
  if a.length ≠ b.length then .error .exception else .ok (matchLoop a b)

/-- c++/src/typebucket.h:249-252 the loop of `add`. -/
def addLoop : Bucket → Bucket → Bucket
  | a :: as, b :: bs => (a + b) :: addLoop as bs
  | _, _ => []

/-- c++/src/typebucket.h:240-255 add. -/
def add (a b : Bucket) : M Bucket :=
  if a.length ≠ b.length then .error .exception else .ok (addLoop a b)

end Bucket
end KMC
