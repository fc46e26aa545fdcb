import Verif.Props.Symmetric
import Verif.Props.FrontEnd

/-!
# C51: basis sites that the lattice does not have
-/

set_option linter.unusedSectionVars false

namespace KMC
open LatticeModel

variable {K : Type _} [Field K] [LinearOrder K] [IsStrictOrderedRing K] [FloorRing K]
variable {env : Env K} {n nT : Nat} {negLog : K → Option K} {cfg : Config K} {procs : List (Proc K)} {s : Sim K}

/-- **C51** With implicit wildcards, no model is made when some process has a single basis site that is not less than the number of basis
points of the lattice: the constructor reads out of bounds (c++/src/interactions.cpp:137), or an error before it ends the construction. -/
theorem C51_basis_beyond (hw : env.implicitWildcards = true) {p : Proc K} (hp : p ∈ procs) {b : Nat} (hb : p.basisSites = [b])
    (hlt : env.L.nBasis ≤ b) : ∀ s, LatticeModel.init env cfg procs ≠ .ok s := by
  intro s h
  unfold LatticeModel.init initialMatching at h
  obtain ⟨ms, h, -⟩ := bind_ok.1 h
  obtain ⟨cfg1, -, h⟩ := bind_ok.1 h
  obtain ⟨procs2, h2, -⟩ := bind_ok.1 h
  unfold Interactions.updateProcessMatchLists at h2
  rw [if_neg (by rw [hw]; simp)] at h2
  have hc : p.clearSites ∈ Interactions.clearMatching procs := List.mem_map_of_mem hp
  obtain ⟨i, hi, e⟩ := List.getElem_of_mem hc
  have hf := mapMM_ok_iff.1 h2
  have hg := hf.get (i := i) hi (by rw [← hf.length_eq]; exact hi)
  simp only [List.get_eq_getElem, e] at hg
  unfold Interactions.updateMatchListOf at hg
  rw [show p.clearSites.basisSites = [b] from hb] at hg
  obtain ⟨x, hx, -⟩ := bind_ok.1 hg
  have hx := rd_ok.1 hx
  have := (List.getElem?_eq_some_iff.1 hx).1
  unfold LatticeMap.indicesFromCell at this
  simp only [List.length_map, List.length_range] at this
  omega

/-- **C51** Otherwise a process none of whose basis sites is a basis point of the lattice is never available in any run. -/
theorem C51_basis_never (h : GoodRun env n nT negLog cfg procs s) {j : Nat} {p p1 : Proc K} (hj : procs[j]? = some p)
    (hb : ∀ b ∈ p.basisSites, env.L.nBasis ≤ b) (hp1 : s.ms.procs[j]? = some p1) : p1.sites = [] := by
  rw [List.eq_nil_iff_forall_not_mem]
  intro site hs
  obtain ⟨-, h2, -⟩ := (C24_available h hp1 site).1 hs
  obtain ⟨q, hq, e, -, -⟩ := h.source hp1
  rw [hj] at hq
  obtain rfl := Option.some.inj hq
  rw [e] at h2
  have h3 := hb _ h2
  have h4 : env.L.basisSite site < env.L.nBasis := Nat.mod_lt _ h.input.lattice.1
  omega

/-- The front end accepts the basis site 7, and the back end then reads out of bounds on a chain with one basis point, while with a
second basis site the process is just never available. -/
example : ((PyProc.make (K := ℚ) [⟨0, 0, 0⟩] ["A"] ["B"] none [7] 1).map fun p => p.basisSites) = .ok [7] ∧
    ((Sample.start (Sample.chain 3 true) [["A"], ["A"], ["A"]] (do return [← Sample.process [0] ["A"] ["B"] 1 [7] [] 0])).map
      fun s => s.ms.procs.map (·.sites)) = .error .outOfBounds ∧
    ((Sample.start (Sample.chain 3 true) [["A"], ["A"], ["A"]] (do return [← Sample.process [0] ["A"] ["B"] 1 [7, 8] [] 0])).map
      fun s => s.ms.procs.map (·.sites)) = .ok [[]] := by
  refine ⟨by decide +kernel, by decide +kernel, by decide +kernel⟩

end KMC
