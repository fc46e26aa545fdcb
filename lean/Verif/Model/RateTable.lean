import Verif.Model.Basic

/-!
# Model of `RateTable` (c++/src/ratetable.h, ratetable.cpp)

An `unordered_map` is an association list with distinct keys.
-/

namespace KMC

/-- `m[key] = value` on a map. -/
def mapPut {κ α : Type _} [DecidableEq κ] (key : κ) (value : α) : List (κ × α) → List (κ × α)
  | [] => [(key, value)]
  | e :: m => if e.1 = key then (key, value) :: m else e :: mapPut key value m

/-- c++/src/ratetable.h, the data members (n_tables_ is the length of `tables`). -/
structure RateTable (K : Type _) where
  maxSize : Nat
  current : Nat
  tables : List (List (Nat × K))
  deriving DecidableEq, Repr

namespace RateTable
variable {K : Type _}

/-- c++/src/ratetable.cpp:19-26 the constructor. -/
def empty : RateTable K := ⟨1024, 0, List.replicate 8 []⟩

/-- `tables_[i].find(key) != end()`. -/
def hasKey (key : Nat) (t : List (Nat × K)) : Bool := t.any (fun e => decide (e.1 = key))

/-- c++/src/ratetable.cpp:31-42 stored; `none` is the code's -1. -/
def stored (r : RateTable K) (key : Nat) : Option Nat := r.tables.findIdx? (hasKey key)

/-- c++/src/ratetable.cpp:47-68 store. -/
def store (r : RateTable K) (key : Nat) (value : K) : M (RateTable K) := do
  let t ← rd r.tables r.current
  let t' := mapPut key value t
  let tables ← wr r.tables r.current t'
  if t'.length = r.maxSize then
    let cur := (r.current + 1) % r.tables.length
    let tables' ← wr tables cur []
    return { r with tables := tables', current := cur }
  else return { r with tables := tables }

/-- c++/src/ratetable.cpp:73-78 retrieve; `.at` throws when the key is absent. -/
def retrieve (r : RateTable K) (key : Nat) : M K :=
  match r.stored key with
  | none => .error .exception
  | some i =>
    match r.tables[i]? with
    | none => .error .exception
    | some t =>
      match t.lookup key with
      | some v => .ok v
      | none => .error .exception

end RateTable
end KMC
