import Verif.Model.LatticeModel

/-!
# Other numbers for the types

The same model with other numbers for the types of particles, and possibly with further types that do not occur.
-/

namespace KMC

/-- The type with number `i` of the first model has number `σ i` in the second one. The wildcard keeps number zero. -/
structure Recoding (nT nT' : Nat) (σ : Nat → Nat) : Prop where
  lt : ∀ i < nT, σ i < nT'
  inj : ∀ i < nT, ∀ j < nT, σ i = σ j → i = j
  wild : σ 0 = 0

/-- Two buckets with the same contents; types that the first model does not have do not occur in the second bucket. -/
structure Bucket.Recoded (nT nT' : Nat) (σ : Nat → Nat) (b b' : Bucket) : Prop where
  length : b.length = nT
  length' : b'.length = nT'
  same : ∀ i < nT, b'[σ i]? = b[i]?
  other : ∀ k < nT', (∀ i < nT, σ i ≠ k) → b'[k]? = some 0

variable {K : Type _}

/-- Entries of match lists of a configuration that differ by the numbers of the types. -/
structure CEntry.Recoded (nT nT' : Nat) (σ : Nat → Nat) (c c' : CEntry K) : Prop where
  index : c.index = c'.index
  distance : c.distance = c'.distance
  coord : c.coord = c'.coord
  types : Bucket.Recoded nT nT' σ c.matchTypes c'.matchTypes

/-- Entries of match lists of a process that differ by the numbers of the types. -/
structure PEntry.Recoded (nT nT' : Nat) (σ : Nat → Nat) (p p' : PEntry K) : Prop where
  hasMove : p.hasMove = p'.hasMove
  distance : p.distance = p'.distance
  coord : p.coord = p'.coord
  moveCoord : p.moveCoord = p'.moveCoord
  types : Bucket.Recoded nT nT' σ p.matchTypes p'.matchTypes
  updates : Bucket.Recoded nT nT' σ p.updateTypes p'.updateTypes

/-- A process without its match list. -/
def Proc.unlisted (p : Proc K) : Proc K := { p with matchList := [] }

/-- Processes that differ by the numbers of the types. -/
structure Proc.Recoded (nT nT' : Nat) (σ : Nat → Nat) (p p' : Proc K) : Prop where
  rest : p.unlisted = p'.unlisted
  entries : List.Forall₂ (PEntry.Recoded nT nT' σ) p.matchList p'.matchList

/-- Configurations that differ by the numbers of the types. (The names of what is on the sites are not compared here: they
are in the order of the numbers when several particles are on a site.) -/
structure Config.Recoded (nT nT' : Nat) (σ : Nat → Nat) (c c' : Config K) : Prop where
  coords : c.coords = c'.coords
  sites : c.elements.length = c'.elements.length
  atomId : c.atomId = c'.atomId
  atomIdCoords : c.atomIdCoords = c'.atomIdCoords
  movedIds : c.movedIds = c'.movedIds
  moveVectors : c.moveVectors = c'.moveVectors
  nMoved : c.nMoved = c'.nMoved
  latestProcess : c.latestProcess = c'.latestProcess
  latestSite : c.latestSite = c'.latestSite
  types : List.Forall₂ (Bucket.Recoded nT nT' σ) c.types c'.types
  lists : List.Forall₂ (List.Forall₂ (CEntry.Recoded nT nT' σ)) c.matchLists c'.matchLists

/-- States of the matcher that differ by the numbers of the types. -/
structure MState.Recoded (nT nT' : Nat) (σ : Nat → Nat) (s s' : MState K) : Prop where
  cfg : Config.Recoded nT nT' σ s.cfg s'.cfg
  procs : List.Forall₂ (Proc.Recoded nT nT' σ) s.procs s'.procs
  inverse : s.inverse = s'.inverse

/-- Simulations that differ by the numbers of the types. -/
structure Sim.Recoded (nT nT' : Nat) (σ : Nat → Nat) (s s' : Sim K) : Prop where
  ms : MState.Recoded nT nT' σ s.ms s'.ms
  table : s.table = s'.table
  time : s.time = s'.time

end KMC
