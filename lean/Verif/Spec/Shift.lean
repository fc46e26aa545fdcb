import Verif.Spec.Model
import Verif.Lemmas.Sites
import Verif.Model.PyLattice
import Verif.Model.Matcher

/-!
# Translations of the lattice
-/

namespace KMC

variable {K : Type _} [Field K] [LinearOrder K]

/-- The site `i`, `j` and `k` cells further along the three axes, around the ends. -/
def PyLattice.translate (P : PyLattice K) (i j k s : Nat) : Nat :=
  P.map.siteNo ⟨(P.map.cellA s + i) % P.repA, (P.map.cellB s + j) % P.repB, (P.map.cellC s + k) % P.repC,
    P.map.basisSite s⟩

/-- Every axis along which the sites are moved is periodic and not shorter than the range. -/
def PyLattice.CanShift (P : PyLattice K) (r i j k : Nat) : Prop :=
  (i = 0 ∨ (P.perA = true ∧ r ≤ P.repA)) ∧ (j = 0 ∨ (P.perB = true ∧ r ≤ P.repB)) ∧
    (k = 0 ∨ (P.perC = true ∧ r ≤ P.repC))

/-- The second configuration has on the translated sites what the first one has on the sites. -/
def PyLattice.Moved {α : Type _} (P : PyLattice K) (i j k : Nat) (types types' : List α) : Prop :=
  ∀ s < P.map.nSites, types'[P.translate i j k s]? = types[s]?

/-- What the rate calculator is told apart from the position of the site. -/
def RateArgs.anywhere : RateArgs K → RateArgs K
  | .plain geometry before after rate number _ => .plain geometry before after rate number 0
  | .buckets geometry occupations updates names rate number _ => .buckets geometry occupations updates names rate number 0

/-- The rate calculator takes no account of the position of the site. -/
def Env.Homogeneous (env : Env K) : Prop := ∀ a a' : RateArgs K, a.anywhere = a'.anywhere → env.callback a = env.callback a'

end KMC
