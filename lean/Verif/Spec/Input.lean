import Verif.Spec.Model

/-!
# What the front end hands over
-/

namespace KMC

/-- The numbering of the types: the names are distinct and the numbers are 0, 1, ... in some order.
(python/src/KMCLib/CoreComponents/KMCLatticeModel.py and Utilities number the sorted names with the
wildcard first.) -/
structure Numbering (pt : List (String × Nat)) : Prop where
  some : pt ≠ []
  names : (pt.map Prod.fst).Nodup
  numbers : (pt.map Prod.snd).Perm (List.range pt.length)

instance (pt : List (String × Nat)) : Decidable (Numbering pt) :=
  decidable_of_iff (pt ≠ [] ∧ (pt.map Prod.fst).Nodup ∧ (pt.map Prod.snd).Perm (List.range pt.length))
    ⟨fun h => ⟨h.1, h.2.1, h.2.2⟩, fun h => ⟨h.some, h.names, h.numbers⟩⟩

/-- Sites and elements as the front end gives them: one nonempty list of known elements per site. -/
structure Occupation (pt : List (String × Nat)) (n : Nat) (elements : List (List String)) : Prop where
  len : elements.length = n
  some : ∀ els ∈ elements, els ≠ []
  known : ∀ els ∈ elements, ∀ e ∈ els, e ∈ pt.map Prod.fst

end KMC
