import Verif.Model.Process
import Mathlib.Algebra.BigOperators.Group.List.Basic

/-! # What a consistent process record is -/

set_option linter.unusedSectionVars false

namespace KMC
namespace Proc
variable {K : Type _} [Field K] [LinearOrder K]

/-- The rates of the listed sites, in list order. -/
def weights (p : Proc K) : List K :=
  if p.custom then List.zipWith (fun r m => r * m) p.siteRates p.siteMult
  else p.siteMult.map (fun m => p.rate * m)

/-- The pairs of entries between which atoms move. -/
def moved (p : Proc K) : List (PEntry K × PEntry K) :=
  p.idMoves.filterMap fun mv =>
    (p.matchList[mv.1]?).bind fun e => (p.matchList[mv.2]?).map fun f => (e, f)

/-- The moves permute the moving entries: every entry with a move vector is left by one atom and
reached by one atom. -/
structure Closed (p : Proc K) : Prop where
  sources : (p.moved.map (·.1)).Nodup
  targets : (p.moved.map (·.2)).Nodup
  moving : ∀ e ∈ p.matchList, e.hasMove = true → e ∈ p.moved.map (·.1) ∧ e ∈ p.moved.map (·.2)

/-- The components of two coordinates differ by at most `tol`. -/
def _root_.KMC.Near (tol : K) (a b : Coord K) : Prop :=
  |b.x - a.x| ≤ tol ∧ |b.y - a.y| ≤ tol ∧ |b.z - a.z| ≤ tol

/-- The moves permute the moving entries, something changes wherever an atom leaves, and the move
vectors lead from one entry to the next, up to `tol`. -/
structure Faithful (tol : K) (p : Proc K) : Prop extends p.Closed where
  shown : ∀ e ∈ p.matchList, e.hasMove = true → ∃ u ∈ e.updateTypes, u ≠ 0
  resting : ∀ e ∈ p.matchList, e.hasMove = false → e.moveCoord = 0
  lands : ∀ x ∈ p.moved, Near tol (x.1.coord + x.1.moveCoord) x.2.coord

/-- Every listed site has its multiplicity (and its rate), each site is listed once, and the total
rate is the sum of the rates of the listed sites. -/
structure Consistent (p : Proc K) : Prop where
  nodup : p.sites.Nodup
  mults : p.siteMult.length = p.sites.length
  rates : p.custom = true → p.siteRates.length = p.sites.length
  total : p.totalRate = p.weights.sum

theorem Consistent.length_weights {p : Proc K} (h : p.Consistent) :
    p.weights.length = p.sites.length := by
  unfold weights
  split
  · next hc => simp [h.mults, h.rates hc]
  · simp [h.mults]

end Proc
end KMC
