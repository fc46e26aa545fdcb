import Verif.Model.Matcher

/-!
# What a well formed model is

The conditions on the input under which the theorems on runs hold. They are about the records handed
to the constructor of the lattice model, before any matching.
-/

set_option linter.unusedSectionVars false

namespace KMC

variable {K : Type _} [Field K] [LinearOrder K]

/-- The bucket of every site counts the elements listed for the site. -/
def Config.Tallied (cfg : Config K) : Prop :=
  ∀ (i : Nat) (els : List String) (t : Bucket), cfg.elements[i]? = some els → cfg.types[i]? = some t →
    (∀ e ∈ els, e ∈ cfg.typeNames) ∧
    ∀ (k : Nat) (name : String), cfg.typeNames[k]? = some name → t[k]? = some (els.count name : Int)

/-- The number of particles of type `k` on the whole lattice. -/
def Config.total (cfg : Config K) (k : Nat) : Int := (cfg.types.map (fun t => t.getD k 0)).sum

/-- The vectors of a configuration all have one entry per site. -/
structure Config.Shape (cfg : Config K) (n : Nat) : Prop where
  coords : cfg.coords.length = n
  elements : cfg.elements.length = n
  types : cfg.types.length = n
  atomId : cfg.atomId.length = n
  atomIdElements : cfg.atomIdElements.length = n
  atomIdCoords : cfg.atomIdCoords.length = n
  matchLists : cfg.matchLists.length = n

/-- A configuration of `n` sites and `nT` types (the wildcard is one of them): all vectors have the
right size, no site is empty, the type names are distinct and the buckets count the elements. -/
structure Config.Good (n nT : Nat) (cfg : Config K) : Prop where
  shape : cfg.Shape n
  names : cfg.typeNames.length = nT
  possible : cfg.possibleTypes.length = nT
  bucket : ∀ t ∈ cfg.types, t.length = nT
  idsLt : ∀ i ∈ cfg.atomId, i < n
  elements : ∀ els ∈ cfg.elements, els ≠ []
  distinct : cfg.typeNames.Nodup
  tallied : cfg.Tallied

/-- The entry changes what is on its site. -/
def PEntry.Changes (e : PEntry K) : Prop := ∃ u ∈ e.updateTypes, u ≠ 0

instance (e : PEntry K) : Decidable e.Changes := by unfold PEntry.Changes; infer_instance

/-- Two points are further apart than twice the tolerance along some axis. -/
def Apart (c d : Coord K) : Prop :=
  1 / 50000 < |c.x - d.x| ∨ 1 / 50000 < |c.y - d.y| ∨ 1 / 50000 < |c.z - d.z|

/-- A process on `nT` types. -/
structure Proc.WellFormed (nT : Nat) (p : Proc K) : Prop where
  /-- the required counts are given for every type -/
  sized : ∀ e ∈ p.matchList, e.matchTypes.length = nT
  /-- the changes are given for every type -/
  updates : ∀ e ∈ p.matchList, e.updateTypes.length = nT
  /-- the number of wildcards is not changed -/
  slot : ∀ e ∈ p.matchList, e.updateTypes[0]? = some 0
  /-- nothing is removed that was not required -/
  enough : ∀ e ∈ p.matchList, e.Changes → ∀ (i : Nat) (x u : Int), e.matchTypes[i]? = some x →
    e.updateTypes[i]? = some u → 0 ≤ x + u
  /-- a changed site is not left empty -/
  leaves : ∀ e ∈ p.matchList, e.Changes → ∃ (i : Nat) (x u : Int), e.matchTypes[i]? = some x ∧
    e.updateTypes[i]? = some u ∧ 0 < x + u
  /-- the positions where something happens are distinct -/
  apart : p.matchList.Pairwise (fun e f => (e.Changes ∨ e.hasMove = true) →
    (f.Changes ∨ f.hasMove = true) → Apart e.coord f.coord)
  /-- nothing happens at a wildcard -/
  notWild : ∀ e ∈ p.matchList, e.Changes ∨ e.hasMove = true → e.matchTypes[0]? ≠ some 1
  /-- there is a slot for every affected index -/
  affected : (p.matchList.filter (fun e => decide e.Changes)).length ≤ p.affected.length
  fresh : ∀ a ∈ p.affected, a = 0
  /-- ids move between entries that have a move vector -/
  moves : ∀ mv ∈ p.idMoves, ∃ e f, p.matchList[mv.1]? = some e ∧ p.matchList[mv.2]? = some f ∧
    e.hasMove = true ∧ f.hasMove = true

/-- The input of the constructor. -/
structure WellFormed (env : Env K) (n nT : Nat) (cfg : Config K) (procs : List (Proc K)) : Prop where
  ranks : 0 < env.nRanks
  typed : 0 < nT
  lattice : env.L.WF
  sites : env.L.nSites = n
  config : cfg.Good n nT
  processes : ∀ p ∈ procs, p.WellFormed nT

/-- The configuration and the processes after match lists have been set up and wildcards inserted,
c++/src/latticemodel.cpp:46-55. -/
def Prepared (env : Env K) (cfg : Config K) (procs : List (Proc K)) (cfg1 : Config K)
    (procs1 : List (Proc K)) : Prop :=
  cfg.initMatchLists env.dist env.L (Interactions.maxRange procs) = .ok cfg1 ∧
  Interactions.updateProcessMatchLists env.implicitWildcards cfg1 env.L
    (Interactions.clearMatching procs) = .ok procs1

/-- The rate calculator can be asked `a` about process `p` with key `k` in the model that starts from
`cfg` and `procs`: there is a configuration and a site where `p` matches and these are the arguments
and the key. -/
def Question (env : Env K) (n nT : Nat) (cfg : Config K) (procs : List (Proc K)) (p : Proc K)
    (k : Nat) (a : RateArgs K) : Prop :=
  ∃ (c : Config K) (i : Nat) (ml : List (CEntry K)), c.Good n nT ∧ c.coords = cfg.coords ∧
    c.typeNames = cfg.typeNames ∧
    c.configMatchList env.dist env.L i (env.L.neighbourIndices i (Interactions.maxRange procs)) = .ok ml ∧
    c.matchLists[i]? = some ml ∧ env.L.basisSite i ∈ p.basisSites ∧
    whateverMatch p.matchList ml = .ok true ∧
    Matcher.rateArgs c p i = .ok a ∧ Matcher.rateKey env c p i = .ok k

/-- What custom rates need of the model apart from caching. -/
structure CustomGeometry (env : Env K) (cfg : Config K) (procs : List (Proc K)) : Prop where
  /-- processes are numbered in order -/
  number : ∀ (j : Nat) (p : Proc K), procs[j]? = some p → p.number = j
  /-- where the positions of a process fit, the sites within its cutoff cover its pattern -/
  inside : ∀ cfg1 procs1, Prepared env cfg procs cfg1 procs1 →
    ∀ (i : Nat) (ml : List (CEntry K)) (p : Proc K), cfg1.matchLists[i]? = some ml → p ∈ procs1 →
      env.L.basisSite i ∈ p.basisSites → p.matchList.length ≤ ml.length →
      (∀ (k : Nat) (e : PEntry K) (c : CEntry K), p.matchList[k]? = some e → ml[k]? = some c →
        e.matchTypes[0]? = some 1 ∨ samePoint e c = true) →
      0 < (ml.takeWhile (fun c => decide (c.distance ≤ p.cutoff))).length ∧
      p.matchList.length ≤ (ml.takeWhile (fun c => decide (c.distance ≤ p.cutoff))).length

/-- What custom rates need. -/
structure CustomRatesOk (env : Env K) (n nT : Nat) (cfg : Config K) (procs : List (Proc K)) : Prop
    extends CustomGeometry env cfg procs where
  /-- a stored rate is only found for questions with the same answer -/
  keys : ∀ cfg1 procs1, Prepared env cfg procs cfg1 procs1 → ∀ p ∈ procs1, ∀ p' ∈ procs1,
    p.cacheRate = true → ∀ k a a', Question env n nT cfg procs p k a →
      Question env n nT cfg procs p' k a' → env.callback a = env.callback a'

end KMC
