import Verif.Spec.Model

/-!
# How many particles a model can have, and how many a process asks for
-/

namespace KMC

variable {K : Type _}

/-- The number of particles an entry asks for; slot 0 is that of the wildcard, and a wildcard asks for nothing. -/
def PEntry.need (e : PEntry K) : Nat := if e.matchTypes[0]? = some 0 then (e.matchTypes.tail.map Int.toNat).sum else 0

/-- The number of particles a process asks for. -/
def Proc.need (p : Proc K) : Nat := (p.matchList.map PEntry.need).sum

/-- There are never more than `M` particles of one type on one site, for one of two reasons: no entry of a process adds
more than it takes and there are no more than `M` particles on any site at the start, or no process as a whole adds more
than it takes and there are no more than `M` particles at the start. -/
def Bounded (M : Nat) (cfg : Config K) (procs : List (Proc K)) : Prop :=
  ((∀ els ∈ cfg.elements, els.length ≤ M) ∧ ∀ p ∈ procs, ∀ e ∈ p.matchList, e.updateTypes.sum ≤ 0) ∨
  ((cfg.elements.map List.length).sum ≤ M ∧ ∀ p ∈ procs, (p.matchList.map (·.updateTypes.sum)).sum ≤ 0)

/-- `M` particles of a type on every site are few enough for the processes: multiplicities stay below `2 ^ 31`. -/
def FewEnough (M : Nat) (procs : List (Proc K)) : Prop := 0 < M ∧ ∀ p ∈ procs, M ^ p.need ≤ 2147483647

end KMC
