import Verif.Samples.Runs

/-!
# Concrete runs about events: moves and buckets
-/

namespace KMC

section
variable {K : Type _} [Field K] [LinearOrder K]

instance (p : Proc K) : Decidable p.Closed :=
  decidable_of_iff ((p.moved.map (·.1)).Nodup ∧ (p.moved.map (·.2)).Nodup ∧
      ∀ e ∈ p.matchList, e.hasMove = true → e ∈ p.moved.map (·.1) ∧ e ∈ p.moved.map (·.2))
    ⟨fun h => ⟨h.1, h.2.1, h.2.2⟩, fun h => ⟨h.sources, h.targets, h.moving⟩⟩

instance (tol : K) (a b : Coord K) : Decidable (Near tol a b) := by unfold Near; infer_instance

instance (tol : K) (p : Proc K) : Decidable (p.Faithful tol) :=
  decidable_of_iff (p.Closed ∧ (∀ e ∈ p.matchList, e.hasMove = true → ∃ u ∈ e.updateTypes, u ≠ 0) ∧
      (∀ e ∈ p.matchList, e.hasMove = false → e.moveCoord = 0) ∧
      ∀ x ∈ p.moved, Near tol (x.1.coord + x.1.moveCoord) x.2.coord)
    ⟨fun h => ⟨h.1, h.2.1, h.2.2.1, h.2.2.2⟩, fun h => ⟨h.toClosed, h.shown, h.resting, h.lands⟩⟩

end

namespace Sample

open LatticeModel

theorem all_of_map {α : Type _} {x : M (List α)} {P : α → Prop} [DecidablePred P] (h : x.map (fun l => l.all (fun a => decide (P a))) = .ok true)
    {l : List α} (hl : x = .ok l) : ∀ a ∈ l, P a := by
  rw [hl] at h
  have := Except.ok.inj h
  rw [List.all_eq_true] at this
  exact fun a ha => by simpa using this a ha

/-- A run on a sample that passes the check. -/
theorem good_run {env : Env ℚ} {P : PyLattice ℚ} {els : List (List String)} {procs : M (List (Proc ℚ))}
    {ds : List (Draws ℚ)} {α : Type _} {f : Sim ℚ → α} {b : α} (n : Nat) (hn : P.sites.length = n)
    (hc : env.useCustomRates = false) (hg : goodCheck env P els procs = true)
    (hr : (go env P els procs ds).map f = .ok b) :
    ∃ cfg ps s, config P els = .ok cfg ∧ procs = .ok ps ∧ GoodRun env n 4 lg cfg ps s ∧ f s = b := by
  obtain ⟨cfg, ps, h1, h2, h3⟩ := goodCheck_ok hg
  obtain ⟨s, hs, hf⟩ := exists_of_map hr
  rw [hn] at h3
  exact ⟨cfg, ps, s, h1, h2, ⟨h3, fun h => (by rw [hc] at h; cases h), reached_of_go hs h1 h2⟩, hf⟩

/-- A process on buckets on a line. -/
def bucketProcess (xs : List ℚ) (before : List (List String)) (updates : List (List (String × Int))) (rate : ℚ)
    (basis : List Nat) (number : Nat) : M (Proc ℚ) := do
  let a ← Config.mk' (xs.map fun x => ⟨x, 0, 0⟩) before types
  mkProcess dist1 a a updates rate basis [] number

/-- Atoms move on without anything coming after: 0 to 1 and 1 to 2. -/
def chainMoves : M (List (Proc ℚ)) := do
  let p ← process [0, 1, 2] ["A", "B", "C"] ["A", "A", "B"] 2 [0] [(0, 1), (1, 1)] 0
  let q ← process [0, 1] ["A", "A"] ["C", "A"] 1 [0] [] 1
  return [p, q]

def chainElements : List (List String) := [["A"], ["B"], ["C"], ["B"], ["B"]]

/-- Three atoms move in a circle, two of them of one type. -/
def circle : M (List (Proc ℚ)) := do
  let p ← process [0, 1, 2] ["A", "A", "B"] ["B", "A", "A"] 2 [0] [(0, 1), (1, 1), (2, -2)] 0
  return [p]

def circleElements : List (List String) := [["A"], ["A"], ["B"], ["C"], ["C"]]

/-- One A is required and turned into B. -/
def oneOf : M (List (Proc ℚ)) := do
  let p ← bucketProcess [0] [["A"]] [[("A", -1), ("B", 1)]] 2 [0] 0
  return [p]

/-- One A is required, two are taken. -/
def takesTwo : M (List (Proc ℚ)) := do
  let p ← bucketProcess [0] [["A"]] [[("A", -2), ("B", 3)]] 2 [0] 0
  return [p]

end Sample
end KMC
