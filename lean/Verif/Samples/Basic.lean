import Verif.Model.LatticeModel
import Verif.Model.PyLattice
import Mathlib.Data.Rat.Floor

/-!
# Small concrete models, used for non-vacuity checks and counterexamples
-/

namespace KMC.Sample

/-- A length function that rational numbers can evaluate. -/
def dist1 (c : Coord ℚ) : ℚ := |c.x| + |c.y| + |c.z|

/-- A chain of `n` cells along the first axis with the given fractional positions in each cell. -/
def chain (n : Nat) (periodic : Bool) (basis : List ℚ := [0]) : PyLattice ℚ :=
  ⟨basis.map (fun x => ⟨x, 0, 0⟩), n, 1, 1, periodic, false, false⟩

/-- The type numbering for types A, B, C. -/
def types : List (String × Nat) := [("*", 0), ("A", 1), ("B", 2), ("C", 3)]

/-- The configuration with the given elements on a lattice. -/
def config (P : PyLattice ℚ) (els : List (List String)) : M (Config ℚ) := Config.mk' P.sites els types

/-- A local configuration on a line. -/
def line (xs : List ℚ) (els : List String) : M (Config ℚ) :=
  Config.mk' (xs.map fun x => ⟨x, 0, 0⟩) (els.map fun e => [e]) types

/-- An ordinary process on a line. -/
def process (xs : List ℚ) (before after : List String) (rate : ℚ) (basis : List Nat)
    (moves : List (Nat × ℚ)) (number : Nat) : M (Proc ℚ) := do
  let a ← line xs before
  let b ← line xs after
  mkProcess dist1 a b [] rate basis (moves.map fun m => (m.1, ⟨m.2, 0, 0⟩)) number

/-- The same process with custom rates. -/
def customProcess (xs : List ℚ) (before after : List String) (rate : ℚ) (basis : List Nat)
    (cutoff : ℚ) (moves : List (Nat × ℚ)) (number : Nat) (cache : Bool) : M (Proc ℚ) := do
  let a ← line xs before
  let b ← line xs after
  mkCustomProcess dist1 a b [] rate basis cutoff (moves.map fun m => (m.1, ⟨m.2, 0, 0⟩)) number cache

/-- Surroundings without custom rates. -/
def env (P : PyLattice ℚ) : Env ℚ :=
  { L := P.map, dist := dist1, nRanks := 1, hash := fun _ => 0, callback := fun _ => 0,
    implicitWildcards := true, useCustomRates := false }

/-- The model at the start. -/
def start (P : PyLattice ℚ) (els : List (List String)) (procs : M (List (Proc ℚ))) : M (Sim ℚ) := do
  let c ← config P els
  let ps ← procs
  LatticeModel.init (env P) c ps

end KMC.Sample
