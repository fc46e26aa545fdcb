import Verif.Model.PyProcess

/-!
# The same process written down in another way
-/

namespace KMC

/-- `π` and `ρ` rename the numbers below `n`, and undo each other. -/
structure Renaming (n : Nat) (π ρ : Nat → Nat) : Prop where
  there : ∀ i < n, π i < n ∧ ρ (π i) = i
  back : ∀ i < n, ρ i < n ∧ π (ρ i) = i

/-- The second list has the members of the first one at the renamed places. -/
def Rearranged {α : Type _} (n : Nat) (π : Nat → Nat) (l l' : List α) : Prop :=
  l.length = n ∧ l'.length = n ∧ ∀ i < n, l'[π i]? = l[i]?

/-- The index of a move names place `i` of `n`; negative indices count from the end. -/
def NamesPlace (n : Nat) (m : Int) (i : Nat) : Prop := i < n ∧ (m = (i : Int) ∨ m + (n : Int) = (i : Int))

/-- The same moves, of the renamed places and in any order. -/
def MovesRenamed {K : Type _} (n : Nat) (π : Nat → Nat) (ms ms' : List (Int × Coord K)) : Prop :=
  ∃ l, l.Perm ms' ∧ List.Forall₂ (fun (m m' : Int × Coord K) => m'.2 = m.2 ∧
    ∃ i, NamesPlace n m.1 i ∧ NamesPlace n m'.1 (π i)) ms l

/-- The places are further from each other than the tolerance for the end of a move. -/
def PlacesApart {K : Type _} [Field K] [LinearOrder K] (coords : List (Coord K)) : Prop :=
  coords.Pairwise (fun a b => 2 / 100000000 ≤ |a.x - b.x| + |a.y - b.y| + |a.z - b.z|)

end KMC
