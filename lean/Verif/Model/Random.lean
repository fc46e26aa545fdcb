import Verif.Model.Basic
import Mathlib.Data.Nat.Digits.Defs
import Mathlib.Algebra.Order.Field.Basic

/-!
# Model of the random numbers (c++/src/random.h, random.cpp)

The engines of the standard library are arbitrary state machines; only their ranges are those of the standard.
`std::generate_canonical` is computed exactly. In double precision this is so when the result has at most 53 bits, as for
all generators but MINSTD.
-/

namespace KMC

/-- c++/src/random.h:16 RNG_TYPE. -/
inductive RngType
  | MT | MINSTD | RANLUX24 | RANLUX48 | DEVICE
  deriving DecidableEq, Repr

namespace RngType

/-- The number of values of an engine, `max() - min() + 1`: `std::mt19937` has 32 bits, `std::minstd_rand` the values from
1 to 2147483646, `std::ranlux24` 24 bits, `std::ranlux48` 48 bits and `std::random_device` those of `unsigned int`. -/
def values : RngType → Nat
  | MT => 2 ^ 32
  | MINSTD => 2147483646
  | RANLUX24 => 2 ^ 24
  | RANLUX48 => 2 ^ 48
  | DEVICE => 2 ^ 32

/-- The number of calls of the engine in `std::generate_canonical<double, 32>`: the least `k ≥ 1` such that `k` values
have 32 bits. -/
def calls : RngType → Nat
  | MT => 1
  | MINSTD => 2
  | RANLUX24 => 2
  | RANLUX48 => 1
  | DEVICE => 1

end RngType

/-- `std::generate_canonical`: the values drawn, less the smallest one, are the digits of a fraction, the first one the
least significant. -/
def canonical {K : Type _} [Field K] (R : Nat) (g : List Nat) : K := (Nat.ofDigits R g : Nat) / ((R ^ g.length : Nat) : K)

/-- What the standard library provides: seeding and drawing for each type. The value drawn is counted from the smallest
one. -/
structure Engines (σ : Type _) where
  seed : RngType → Int → σ
  next : RngType → σ → Nat × σ

/-- c++/src/random.cpp:32-43: the type in use and the states of the engines, which are global. -/
structure Rngs (σ : Type _) where
  type : RngType
  state : RngType → σ

namespace Rngs
variable {σ : Type _}

/-- c++/src/random.cpp:47-70 setRngType; `entropy` tells whether there is a random device. -/
def setRngType (entropy : Bool) (t : RngType) (g : Rngs σ) : Bool × Rngs σ :=
  (if t = .DEVICE then entropy else true, { g with type := t })

/-- c++/src/random.cpp:77-95: the seed; `time` is the time in seconds of the master process when the seed is taken from
the clock. The sum is an `int`. -/
def seedValue (time : Option Int) (seed : Int) : M Int :=
  match time with
  | some t => if seed + t < -2 ^ 31 ∨ 2 ^ 31 ≤ seed + t then .error .overflow else .ok (seed + t)
  | none => .ok seed

/-- c++/src/random.cpp:75-125 seedRandom. -/
def seedRandom (E : Engines σ) (time : Option Int) (seed : Int) (g : Rngs σ) : M (Rngs σ) := do
  let s ← seedValue time seed
  if g.type = .DEVICE then return g
  else return { g with state := fun t => if t = g.type then E.seed t s else g.state t }

/-- `k` values of the engine in use. -/
def draw (E : Engines σ) : Nat → Rngs σ → List Nat × Rngs σ
  | 0, g => ([], g)
  | k + 1, g =>
    let r := E.next g.type (g.state g.type)
    let g' : Rngs σ := { g with state := fun t => if t = g.type then r.2 else g.state t }
    let rest := draw E k g'
    (r.1 :: rest.1, rest.2)

/-- c++/src/random.cpp:130-156 randomDouble01. -/
def randomDouble01 {K : Type _} [Field K] (E : Engines σ) (g : Rngs σ) : K × Rngs σ :=
  let r := draw E g.type.calls g
  (canonical g.type.values r.1, r.2)

/-- The next `n` random numbers. -/
def numbers {K : Type _} [Field K] (E : Engines σ) : Nat → Rngs σ → List K
  | 0, _ => []
  | n + 1, g =>
    let r := randomDouble01 (K := K) E g
    r.1 :: numbers E n r.2

/-- python/src/KMCLib/CoreComponents/KMCLatticeModel.py:154-159: choice of the generator and seeding at the start of
a run. The call of the backend fails for a seed that is not an `int`. -/
def start (E : Engines σ) (entropy : Bool) (t : RngType) (time : Option Int) (seed : Nat) (g : Rngs σ) : M (Rngs σ) :=
  let r := setRngType entropy t g
  if r.1 = false then .error .exception
  else if 2 ^ 31 ≤ seed then .error .exception
  else seedRandom E time seed r.2

end Rngs
end KMC
